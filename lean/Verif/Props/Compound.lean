import Mathlib.Data.Rat.Floor
import Mathlib.Tactic.NormNum
import Mathlib.Tactic.Positivity
import Mathlib.Algebra.BigOperators.Ring.List
import Mathlib.Algebra.Order.BigOperators.Group.List
import Verif.Lemmas.CompoundText

/-!
# Properties C13–C18: chemical compounds and alloys

`symbols`, `PlainDecimal` and `SymbolName` (Spec/Compound.lean) say, without the regular expression, which symbols with
which amounts a text contains and which texts are plain decimal numbers.
-/

set_option linter.unusedSimpArgs false
set_option linter.unusedSectionVars false

namespace TEflow
open Loader PyDict

section
variable {K : Type} [Field K]

/-! ### C13 -/

/-- **C13.** A compound whose names are element symbols and whose amounts are printed as plain decimals is read back
unchanged (same elements, order and amounts), for each style, with or without omitted ones, whatever the flags, provided
the flags do not reject one of its symbols. -/
theorem C13_round_trip (fmt : K → List Char) (style : Style) (omitOne : Bool) (comp : PyDict (List Char) K) (hwf : WF comp)
    (hn : ∀ e ∈ comp, SymbolName e.1) (hx : ∀ e ∈ comp, PlainDecimal (fmt e.2) e.2)
    (known : List Char → Bool) (skip raise : Bool)
    (hk : skip = true ∨ raise = true → ∀ e ∈ comp, known (e.1.take 2) = true) :
    fromString known skip raise (toText fmt style omitOne comp) = .ok comp := by
  have hsym : symbols (toText fmt style omitOne comp) = comp.map (fun e => (e.1, shownNum fmt omitOne e.2)) := by
    cases style
    · exact (symbols_joined fmt true omitOne comp hn hx).1
    · exact (symbols_joined fmt false omitOne comp hn hx).1
    · exact (symbols_split fmt omitOne comp hn hx).1
  unfold fromString
  rw [formulaMatches_eq, hsym]
  have ham : ∀ e ∈ comp, amount (shownNum fmt omitOne e.2) = .ok e.2 := fun e he => amount_shown fmt omitOne e.2 (hx e he)
  have hgo : ∀ (c1 c2 : PyDict (List Char) K), (∀ e ∈ c2, amount (shownNum fmt omitOne e.2) = .ok e.2) →
      (∀ e ∈ c2, skip = true ∨ raise = true → known (e.1.take 2) = true) →
      fromStringGo known skip raise c1 (c2.map (fun e => (e.1, shownNum fmt omitOne e.2))) = .ok (PyDict.update c1 c2) := by
    intro c1 c2
    induction c2 generalizing c1 with
    | nil => intros; rfl
    | cons e c2 ih =>
      intro h1 h2
      rw [List.map_cons, fromStringGo]
      have hr : (!known (e.1.take 2) && raise) = false := by
        cases raise with
        | false => simp
        | true => simp [h2 e (by simp) (Or.inr rfl)]
      have hs : (!known (e.1.take 2) && skip) = false := by
        cases skip with
        | false => simp
        | true => simp [h2 e (by simp) (Or.inl rfl)]
      simp only [hr, hs, Bool.false_eq_true, if_false]
      rw [h1 e (by simp)]
      exact ih _ (fun e he => h1 e (by simp [he])) (fun e he => h2 e (by simp [he]))
  rw [hgo [] comp ham (fun e he h => hk h e he)]
  exact congrArg _ (ofPairs_of_WF hwf)

/-- a formatter on a few rationals, to instantiate `C13_round_trip` -/
def fmtDemo (x : ℚ) : List Char := if x = 1/2 then "0.5".toList else if x = 3 then "3".toList else "1".toList

/-- `C13_round_trip` applied to Bi0.5SbTe3 -/
example (style : Style) (b : Bool) :
    fromString knownElement true false (toText fmtDemo style b [("Bi".toList, (1/2 : ℚ)), ("Sb".toList, 1), ("Te".toList, 3)]) =
      .ok [("Bi".toList, (1/2 : ℚ)), ("Sb".toList, 1), ("Te".toList, 3)] := by
  refine C13_round_trip fmtDemo style b _ (by decide) ?_ ?_ _ _ _ ?_
  · intro e he; simp at he
    rcases he with rfl | rfl | rfl
    · exact ⟨'B', ['i'], by decide, by decide, by decide⟩
    · exact ⟨'S', ['b'], by decide, by decide, by decide⟩
    · exact ⟨'T', ['e'], by decide, by decide, by decide⟩
  · intro e he; simp at he
    rcases he with rfl | rfl | rfl
    · exact Or.inr ⟨['0'], ['5'], by decide +kernel, by decide, by decide, by decide, by decide +kernel⟩
    · exact Or.inl ⟨by decide +kernel, by decide +kernel, by decide +kernel⟩
    · exact Or.inl ⟨by decide +kernel, by decide +kernel, by decide +kernel⟩
  · intro _ e he; simp at he; rcases he with rfl | rfl | rfl <;> decide +kernel

/-! ### C14 -/

/-- **C14 (errors).** `from_string` can only fail with `ValueError`, and fails exactly when a rejected unknown symbol
occurs (`raise_unknown`) or a symbol that is not skipped has a lone dot as its amount. -/
theorem C14_errors (known : List Char → Bool) (skip raise : Bool) (formula : List Char) (e : PyErr) :
    fromString (K := K) known skip raise formula = .error e ↔ e = .valueError ∧
      ((raise = true ∧ ∃ s ∈ symbols formula, known (s.1.take 2) = false) ∨
        ∃ s ∈ symbols formula, (skip = true → raise = false → known (s.1.take 2) = true) ∧ s.2 = ['.']) := by
  have hmem : ∀ p, p ∈ keptBy known skip raise (symbols formula) ↔
      p ∈ symbols formula ∧ (skip = true → raise = false → known (p.1.take 2) = true) := by
    intro p; unfold keptBy
    cases skip <;> cases raise <;> simp
  have hs := symbols_shape formula
  have he : ∀ p ∈ symbols formula, (∃ x : K, amount p.2 = .ok x) ∨ amount (K := K) p.2 = .error .valueError := by
    intro p hp
    rcases amount_shape (K := K) p.2 (hs p hp) with ⟨h, _⟩ | ⟨h, _⟩
    · exact Or.inl h
    · exact Or.inr h
  unfold fromString
  rw [formulaMatches_eq]
  rcases fromStringGo_spec known skip raise (symbols formula) [] he with ⟨h1, h2⟩ | ⟨vs, h1, h2, h3⟩
  · rw [h1]
    constructor
    · intro h; injection h with h; subst h
      refine ⟨rfl, ?_⟩
      rcases h2 with h2 | ⟨p, hp, hpa⟩
      · exact Or.inl h2
      · right
        rw [hmem] at hp
        refine ⟨p, hp.1, hp.2, ?_⟩
        rcases amount_shape (K := K) p.2 (hs p hp.1) with ⟨⟨x, h⟩, _⟩ | ⟨_, h⟩
        · rw [h] at hpa; cases hpa
        · exact h
    · rintro ⟨rfl, _⟩; rfl
  · rw [h1]
    constructor
    · intro h; cases h
    · rintro ⟨_, h | ⟨s, hs1, hs2, hs3⟩⟩
      · exact absurd h h2
      · exfalso
        have hk : s ∈ keptBy known skip raise (symbols formula) := (hmem s).mpr ⟨hs1, hs2⟩
        have : ∃ v : List Char × K, amount s.2 = .ok v.2 := by
          clear h1
          generalize keptBy known skip raise (symbols formula) = l at h3 hk
          induction h3 with
          | nil => simp at hk
          | cons hab _ ih =>
            rcases List.mem_cons.mp hk with rfl | hk
            · exact ⟨_, hab.2⟩
            · exact ih hk
        obtain ⟨v, hv⟩ := this
        rw [hs3] at hv
        have := amount_dec (K := K) [] [] (by simp)
        simp at this
        rw [this] at hv; cases hv

/-- **C14.** When `from_string` succeeds, its entries are the distinct names of the symbols that are not skipped, in the
order of their first occurrence, each with the amount of its last occurrence. -/
theorem C14_from_string (known : List Char → Bool) (skip raise : Bool) (formula : List Char) (comp : PyDict (List Char) K)
    (h : fromString known skip raise formula = .ok comp)
    (kept : List (List Char × List Char))
    (hkept : kept = (symbols formula).filter (fun s => !(skip && !raise) || known (s.1.take 2))) :
    WF comp ∧ (∀ n, n ∈ keys comp ↔ n ∈ kept.map Prod.fst) ∧
      (keys comp).Pairwise (fun a b => (kept.map Prod.fst).idxOf a < (kept.map Prod.fst).idxOf b) ∧
      ∀ n x, get? comp n = some x ↔
        ∃ s, (kept.filter (fun s => s.1 = n)).getLast? = some s ∧ amount s.2 = .ok x := by
  have hk' : keptBy known skip raise (symbols formula) = kept := by
    rw [hkept]; unfold keptBy
    cases skip <;> cases raise <;> simp
  unfold fromString at h
  rw [formulaMatches_eq] at h
  have he : ∀ p ∈ symbols formula, (∃ x : K, amount p.2 = .ok x) ∨ amount (K := K) p.2 = .error .valueError := by
    intro p hp
    rcases amount_shape (K := K) p.2 (symbols_shape formula p hp) with ⟨h, _⟩ | ⟨h, _⟩
    · exact Or.inl h
    · exact Or.inr h
  rcases fromStringGo_spec known skip raise (symbols formula) [] he with ⟨h1, _⟩ | ⟨vs, h1, _, h3⟩
  · rw [h1] at h; cases h
  · rw [h1] at h
    injection h with h; subst h
    rw [hk'] at h3
    have hfst : vs.map Prod.fst = kept.map Prod.fst := by
      clear h1 hkept hk'
      induction h3 with
      | nil => rfl
      | cons hab _ ih => simp [ih, hab.1]
    refine ⟨WF_ofPairs vs, ?_, ?_, ?_⟩
    · intro n; rw [mem_keys_update, ← hfst]; simp [keys]
    · have := keys_ofPairs_order vs
      rw [hfst] at this; exact this
    · intro n x
      rw [get?_update]
      simp only [get?_nil, Option.or_none]
      clear h1 hfst hk' hkept
      induction h3 with
      | nil => simp
      | @cons a b l1 l2 hab hl ih =>
        rw [List.reverse_cons, get?_append, get?_cons]
        by_cases hn : a.1 = n
        · rw [List.filter_cons_of_pos (by simpa using hn), List.getLast?_cons]
          cases hg : get? l2.reverse n with
          | some y =>
            rw [hg] at ih
            constructor
            · intro hxy; simp at hxy; subst hxy
              obtain ⟨s, hs1, hs2⟩ := ih.mp rfl
              exact ⟨s, by simp [hs1], hs2⟩
            · rintro ⟨s, hs1, hs2⟩
              cases hl2 : (l1.filter (fun s => decide (s.1 = n))).getLast? with
              | none =>
                exfalso
                have hnone : ∀ s ∈ l1, ¬ s.1 = n := by
                  intro s hs hsn
                  rw [List.getLast?_eq_none_iff, List.filter_eq_nil_iff] at hl2
                  exact hl2 s hs (by simpa using hsn)
                have hk2 : n ∈ keys l2.reverse := by
                  rw [← isSome_get?, hg]; rfl
                have : n ∈ l1.map Prod.fst := by
                  have e : l2.map Prod.fst = l1.map Prod.fst := by
                    clear ih hg hl2 hnone hk2 hs1
                    induction hl with
                    | nil => rfl
                    | cons hab _ ih => simp [ih, hab.1]
                  rw [← e]; simpa [keys] using hk2
                obtain ⟨s, hs, hsn⟩ := List.mem_map.mp this
                exact hnone s hs hsn
              | some s' =>
                rw [hl2] at hs1 ih
                simp at hs1; subst hs1
                have := ih.mpr ⟨s', rfl, hs2⟩
                simpa using this
          | none =>
            rw [hg] at ih
            have hnone : (l1.filter (fun s => decide (s.1 = n))) = [] := by
              rw [List.filter_eq_nil_iff]
              intro s hs hsn
              have hk2 : n ∉ keys l2.reverse := by rw [← get?_eq_none]; exact hg
              apply hk2
              have e : l2.map Prod.fst = l1.map Prod.fst := by
                clear ih hg hk2 hs
                induction hl with
                | nil => rfl
                | cons hab _ ih => simp [ih, hab.1]
              have : n ∈ l1.map Prod.fst := List.mem_map.mpr ⟨s, hs, by simpa using hsn⟩
              rw [← e] at this; simpa [keys] using this
            rw [hnone]
            simp only [Option.none_or, hab.1, hn, if_true, List.getLast?_nil, Option.getD_none, Option.some.injEq]
            constructor
            · intro hbx; subst hbx; exact ⟨a, rfl, hab.2⟩
            · rintro ⟨s, hs1, hs2⟩; subst hs1
              rw [hab.2] at hs2; injection hs2
        · rw [List.filter_cons_of_neg (by simpa using hn)]
          have : ¬ b.1 = n := by rw [hab.1]; exact hn
          simp only [this, if_false, get?_nil, Option.or_none]
          exact ih

theorem char_range (lo hi c : Char) (h : (decide (lo ≤ c) && decide (c ≤ hi)) = true) : ∃ k < hi.toNat + 1 - lo.toNat, c = Char.ofNat (lo.toNat + k) := by
  have hle : ∀ a b : Char, a ≤ b ↔ a.toNat ≤ b.toNat := fun a b => Iff.rfl
  simp only [Bool.and_eq_true, decide_eq_true_eq, hle] at h
  exact ⟨c.toNat - lo.toNat, by omega, by rw [Nat.add_sub_cancel' h.1, Char.ofNat_toNat]⟩

/-- **C14** The characters that count: the ASCII digits in an amount, the capital letters at the start of a symbol, the small letters after it. -/
theorem C14_characters (c : Char) : (isDigit c = true ↔ c ∈ "0123456789".toList) ∧ (isUpper c = true ↔ c ∈ "ABCDEFGHIJKLMNOPQRSTUVWXYZ".toList) ∧
    (isLower c = true ↔ c ∈ "abcdefghijklmnopqrstuvwxyz".toList) := by
  refine ⟨⟨fun h => ?_, fun h => ?_⟩, ⟨fun h => ?_, fun h => ?_⟩, ⟨fun h => ?_, fun h => ?_⟩⟩
  · obtain ⟨k, hk, rfl⟩ := char_range _ _ c h
    revert k
    decide
  · revert c
    decide
  · obtain ⟨k, hk, rfl⟩ := char_range _ _ c h
    revert k
    decide
  · revert c
    decide
  · obtain ⟨k, hk, rfl⟩ := char_range _ _ c h
    revert k
    decide
  · revert c
    decide

/-- **C14 (amounts).** The amount of a symbol without a number is 1; of digits their value; of `a.b` the decimal
fraction (either side may be missing, not both). -/
theorem C14_amount (a b : List Char) (ha : ∀ c ∈ a, isDigit c = true) (hb : ∀ c ∈ b, isDigit c = true) :
    amount (K := K) [] = .ok 1 ∧ (a ≠ [] → amount (K := K) a = .ok (digitsVal a : K)) ∧
      (a ≠ [] ∨ b ≠ [] → amount (K := K) (a ++ '.' :: b) = .ok ((digitsVal a : K) + (digitsVal b : K) / 10 ^ b.length)) := by
  refine ⟨amount_nil, amount_int a ha, fun h => ?_⟩
  rw [amount_dec a b ha]
  have : ¬ (a = [] ∧ b = []) := by tauto
  simp [this]

example : symbols "Bi_2 Te\\-(2.7)Se.3Te".toList =
    [("Bi".toList, "2".toList), ("Te".toList, "2.7".toList), ("Se".toList, ".3".toList), ("Te".toList, [])] := by decide +kernel
/-- a repeated symbol is overwritten, not added: Te keeps its place but gets the last amount -/
example : fromString (K := ℚ) knownElement false false "Bi2Te2Se1Te".toList =
    .ok [("Bi".toList, 2), ("Te".toList, 1), ("Se".toList, 1)] := by decide +kernel
example : fromString (K := ℚ) knownElement true false "BiXyz2Te".toList = .ok [("Bi".toList, 1), ("Te".toList, 1)] := by decide +kernel
example : fromString (K := ℚ) knownElement true true "BiXyz2Te".toList = .error .valueError := by decide +kernel

/-! ### C15 -/

section Replace
variable {κ ν : Type} [DecidableEq κ]

/-- **C15 (errors).** `replace` raises `KeyError` exactly when the old name is absent or the new one present, and
then leaves the compound alone; nothing else is raised. -/
theorem C15_errors (comp : PyDict κ ν) (old new : κ) (mo : Bool) :
    ((replace comp old new mo).2 = .ok () ↔ old ∈ keys comp ∧ new ∉ keys comp) ∧
    (¬ (old ∈ keys comp ∧ new ∉ keys comp) → replace comp old new mo = (comp, .error .keyError)) := by
  have hpop : ∀ (l acc : List (κ × ν)), old ∈ l.map Prod.fst → ∃ r, popLoop old new l acc = .ok r := by
    intro l
    induction l with
    | nil => simp
    | cons p l ih =>
      intro acc h
      obtain ⟨k, v⟩ := p
      rw [popLoop]
      by_cases hk : k = old
      · exact ⟨_, if_pos hk⟩
      · rw [if_neg hk]
        apply ih
        simpa [Ne.symm hk] using h
  unfold replace
  by_cases ho : old ∈ keys comp
  · have h1 : has comp old = true := (has_iff comp old).mpr ho
    by_cases hn : new ∈ keys comp
    · have h2 : has comp new = true := (has_iff comp new).mpr hn
      simp [h1, h2, ho, hn]
    · have h2 : has comp new = false := by
        cases h : has comp new with
        | false => rfl
        | true => exact absurd ((has_iff comp new).mp h) hn
      simp only [h1, h2, Bool.not_true, Bool.false_eq_true, if_false, ho, hn, not_false_eq_true, and_self, iff_true, not_true,
        false_implies, and_true]
      cases mo
      · simp only [Bool.false_eq_true, if_false]
        have : (get? comp old).isSome := (isSome_get? comp old).mpr ho
        cases hg : get? comp old with
        | none => simp [hg] at this
        | some v => rfl
      · simp only [if_true]
        obtain ⟨r, hr⟩ := hpop comp.reverse [] (by simpa [keys] using ho)
        rw [hr]
  · have h1 : has comp old = false := by
      cases h : has comp old with
      | false => rfl
      | true => exact absurd ((has_iff comp old).mp h) ho
    simp [h1, ho]

theorem popLoop_spec (old new : κ) (pre post : List (κ × ν)) (v : ν) (hpost : old ∉ post.map Prod.fst) (acc : List (κ × ν)) :
    popLoop old new (post ++ (old, v) :: pre) acc = .ok (pre, acc ++ post ++ [(new, v)]) := by
  induction post generalizing acc with
  | nil => simp [popLoop]
  | cons p post ih =>
    obtain ⟨k, w⟩ := p
    simp only [List.map_cons, List.mem_cons, not_or] at hpost
    rw [List.cons_append, popLoop, if_neg (Ne.symm hpost.1), ih hpost.2]
    simp

theorem dict_split {comp : PyDict κ ν} (hwf : WF comp) {old : κ} (h : old ∈ keys comp) :
    ∃ pre v post, comp = pre ++ (old, v) :: post ∧ old ∉ keys pre ∧ old ∉ keys post := by
  obtain ⟨⟨k, v⟩, hp, rfl⟩ := List.mem_map.mp h
  obtain ⟨pre, post, rfl⟩ := List.append_of_mem hp
  refine ⟨pre, v, post, rfl, ?_, ?_⟩
  · intro hk
    simp only [WF, keys_append, keys_cons] at hwf
    rw [List.nodup_append] at hwf
    exact hwf.2.2 k hk k (by simp) rfl
  · intro hk
    simp only [WF, keys_append, keys_cons] at hwf
    have := (List.nodup_append.mp hwf).2.1
    exact (List.nodup_cons.mp this).1 hk

/-- **C15 (in place).** With `match_order=True` every entry keeps its place and amount; only the name changes. -/
theorem C15_match_order (comp : PyDict κ ν) (hwf : WF comp) (old new : κ) (ho : old ∈ keys comp) (hn : new ∉ keys comp) :
    (replace comp old new true).1 = comp.map (fun e => (if e.1 = old then new else e.1, e.2)) := by
  obtain ⟨pre, v, post, rfl, hpre, hpost⟩ := dict_split hwf ho
  have h1 : has (pre ++ (old, v) :: post) old = true := (has_iff _ old).mpr ho
  have h2 : has (pre ++ (old, v) :: post) new = false := by
    cases h : has (pre ++ (old, v) :: post) new with
    | false => rfl
    | true => exact absurd ((has_iff _ new).mp h) hn
  have hrev : (pre ++ (old, v) :: post).reverse = post.reverse ++ (old, v) :: pre.reverse := by simp
  have hid : ∀ l : PyDict κ ν, old ∉ keys l → l.map (fun e => (if e.1 = old then new else e.1, e.2)) = l := by
    intro l hl
    conv_rhs => rw [← List.map_id l]
    apply List.map_congr_left
    intro e he
    have : e.1 ≠ old := fun h' => hl (h' ▸ List.mem_map.mpr ⟨e, he, rfl⟩)
    simp [this]
  unfold replace
  simp only [h1, h2, Bool.not_true, Bool.false_eq_true, if_false, if_true]
  rw [hrev, popLoop_spec old new pre.reverse post.reverse v (by simpa [keys] using hpost)]
  simp only [List.reverse_reverse, List.nil_append, List.reverse_append, List.reverse_cons, List.reverse_nil]
  rw [keys_append, keys_cons, List.mem_append, List.mem_cons] at hn
  push Not at hn
  have hnd : (keys pre).Nodup ∧ (keys post).Nodup ∧ ∀ a ∈ keys post, a ∉ keys pre := by
    simp only [WF, keys_append, keys_cons] at hwf
    obtain ⟨w1, w2, w3⟩ := List.nodup_append.mp hwf
    exact ⟨w1, (List.nodup_cons.mp w2).2, fun a ha ha' => w3 a ha' a (by simp [ha]) rfl⟩
  rw [show [(new, v)] ++ post = ((new, v) :: post : PyDict κ ν) from rfl, update_of_disjoint]
  · rw [List.map_append, List.map_cons, hid pre hpre, hid post hpost]; simp
  · simp only [WF, keys_cons, List.nodup_cons]; exact ⟨hn.2.2, hnd.2.1⟩
  · intro k hk
    simp only [keys_cons, List.mem_cons] at hk
    rcases hk with rfl | hk
    · exact hn.1
    · exact hnd.2.2 k hk

/-- **C15 (at the end).** Without `match_order` the other entries keep their order and the new name goes last with the
old amount. -/
theorem C15_append (comp : PyDict κ ν) (hwf : WF comp) (old new : κ) (v : ν) (ho : (old, v) ∈ comp) (hn : new ∉ keys comp) :
    (replace comp old new false).1 = comp.filter (fun e => e.1 ≠ old) ++ [(new, v)] := by
  have hg := mem_get? hwf ho
  have h1 : has comp old = true := by simp [has, hg]
  have h2 : has comp new = false := by
    cases h : has comp new with
    | false => rfl
    | true => exact absurd ((has_iff _ new).mp h) hn
  unfold replace
  simp only [h1, h2, Bool.not_true, Bool.false_eq_true, if_false, hg]
  rw [set_of_not_mem, erase_eq_filter hwf]
  rw [keys_erase hwf]
  intro hm
  exact hn (List.mem_of_mem_filter hm)

/-- **C15 (undo).** Replacing back restores the compound: exactly, with `match_order=True`; with the original
entry last, otherwise. -/
theorem C15_undo (comp : PyDict κ ν) (hwf : WF comp) (old new : κ) (v : ν) (ho : (old, v) ∈ comp) (hn : new ∉ keys comp) :
    (replace (replace comp old new true).1 new old true).1 = comp ∧
    (replace (replace comp old new false).1 new old false).1 = comp.filter (fun e => e.1 ≠ old) ++ [(old, v)] := by
  have hok : old ∈ keys comp := List.mem_map.mpr ⟨_, ho, rfl⟩
  have hne : old ≠ new := fun h => hn (h ▸ hok)
  constructor
  · rw [C15_match_order comp hwf old new hok hn]
    have hk : keys (comp.map (fun e => (if e.1 = old then new else e.1, e.2))) =
        (keys comp).map (fun k => if k = old then new else k) := by
      simp [keys, List.map_map, Function.comp_def]
    rw [C15_match_order]
    · rw [List.map_map]
      conv_rhs => rw [← List.map_id comp]
      apply List.map_congr_left
      intro e he
      have hen : e.1 ≠ new := fun h' => hn (h' ▸ List.mem_map.mpr ⟨e, he, rfl⟩)
      by_cases h : e.1 = old
      · obtain ⟨e1, e2⟩ := e; simp only at h; subst h; simp
      · simp [h, hen]
    · unfold WF; rw [hk]
      refine List.Nodup.map_on ?_ hwf
      intro a ha b hb hab
      by_cases h1 : a = old <;> by_cases h2 : b = old
      · rw [h1, h2]
      · simp [h1, h2] at hab; exact absurd (hab ▸ hb) hn
      · simp [h1, h2] at hab; exact absurd (hab ▸ ha) hn
      · simpa [h1, h2] using hab
    · rw [hk]; exact List.mem_map.mpr ⟨old, hok, by simp⟩
    · rw [hk]; intro hm
      obtain ⟨k, _, hk'⟩ := List.mem_map.mp hm
      by_cases h : k = old
      · simp [h] at hk'; exact hne hk'.symm
      · simp [h] at hk'
  · rw [C15_append comp hwf old new v ho hn]
    have hfk : keys (comp.filter (fun e => decide (e.1 ≠ old))) = (keys comp).filter (fun k => decide (k ≠ old)) := by
      have := keys_filter_keys comp (fun k => decide (k ≠ old)); exact this
    rw [C15_append (v := v)]
    · rw [List.filter_append]
      have h1 : (comp.filter (fun e => decide (e.1 ≠ old))).filter (fun e => decide (e.1 ≠ new)) =
          comp.filter (fun e => decide (e.1 ≠ old)) := by
        rw [List.filter_eq_self]
        intro e he
        have : e.1 ≠ new := fun h' => hn (h' ▸ List.mem_map.mpr ⟨e, List.mem_of_mem_filter he, rfl⟩)
        simpa using this
      rw [h1]; simp
    · unfold WF; rw [keys_append, hfk, List.nodup_append]
      refine ⟨List.Nodup.filter _ hwf, by simp, ?_⟩
      intro a ha b hb hab
      simp at hb; subst hb; subst hab
      exact hn (List.mem_of_mem_filter ha)
    · simp
    · rw [keys_append, hfk]
      simp [hne]

example : (replace [("Bi", (2 : ℚ)), ("Te", 3)] "Bi" "Sb" true) = ([("Sb", 2), ("Te", 3)], .ok ()) := by decide +kernel
example : (replace [("Bi", (2 : ℚ)), ("Te", 3)] "Bi" "Sb" false) = ([("Te", 3), ("Sb", 2)], .ok ()) := by decide +kernel
example : (replace [("Bi", (2 : ℚ)), ("Te", 3)] "Bi" "Te" false) = ([("Bi", 2), ("Te", 3)], .error .keyError) := by decide +kernel

end Replace
end

/-! ### C16 -/

section Natom
variable {K : Type} [Field K] [LinearOrder K] [IsStrictOrderedRing K] [FloorRing K]

/-- `round` gives a nearest integer, the even one if there are two -/
theorem pyRound_spec (x : K) : |x - (pyRound x : K)| ≤ 1 / 2 ∧
    (|x - (pyRound x : K)| = 1 / 2 → pyRound x % 2 = 0) := by
  have h0 := Int.floor_le x
  have h1 := Int.lt_floor_add_one x
  unfold pyRound
  split
  · rename_i h
    rw [abs_of_nonneg (by linarith)]
    exact ⟨h.le, fun h' => absurd h' (ne_of_lt h)⟩
  · rename_i h
    split
    · rename_i h2
      push_cast
      rw [abs_of_nonpos (by linarith)]
      exact ⟨by linarith, fun h' => by linarith⟩
    · rename_i h2
      have he : x - ⌊x⌋ = 1 / 2 := le_antisymm (not_lt.mp h2) (not_lt.mp h)
      split
      · rename_i h3
        rw [he, abs_of_nonneg (by norm_num)]
        exact ⟨le_refl _, fun _ => h3⟩
      · push_cast
        rw [show x - ((⌊x⌋ : K) + 1) = -(1/2) by linarith, abs_neg, abs_of_nonneg (by norm_num)]
        exact ⟨le_refl _, fun _ => by omega⟩

/-- **C16.** `natom` is within 1E-8 of the total of the amounts; it is an integer when an integer lies within 1E-8 of that
total, and is the total itself otherwise. -/
theorem C16_natom {κ : Type} (comp : PyDict κ K) :
    |natom comp - (comp.map Prod.snd).sum| < 1 / 100000000 ∧
    ((∃ z : ℤ, |(comp.map Prod.snd).sum - z| < 1 / 100000000) → ∃ z : ℤ, natom comp = z) ∧
    ((¬ ∃ z : ℤ, |(comp.map Prod.snd).sum - z| < 1 / 100000000) → natom comp = (comp.map Prod.snd).sum) := by
  unfold natom
  simp only [show total comp = (comp.map Prod.snd).sum from rfl]
  set n := (comp.map Prod.snd).sum
  by_cases h : |n - (pyRound n : K)| < 1 / 100000000
  · simp only [h, if_true]
    exact ⟨by rw [abs_sub_comm]; exact h, fun _ => ⟨_, rfl⟩, fun hno => absurd ⟨pyRound n, h⟩ hno⟩
  · simp only [h, if_false]
    refine ⟨by simp, fun ⟨z, hz⟩ => ?_, fun _ => trivial⟩
    -- an integer so close is the rounded value
    exfalso
    have hr := (pyRound_spec n).1
    have : pyRound n = z := by
      have hd : |((pyRound n : K) - z)| < 1 := by
        have : (pyRound n : K) - z = (n - z) - (n - pyRound n) := by ring
        rw [this]
        calc |n - z - (n - pyRound n)| ≤ |n - z| + |n - pyRound n| := abs_sub _ _
          _ < 1 / 100000000 + 1 / 2 := by linarith
          _ < 1 := by norm_num
      have hd' : |pyRound n - z| < 1 := by exact_mod_cast hd
      rw [Int.abs_lt_one_iff] at hd'; omega
    rw [this] at h; exact h hz

example : natom [("Bi", (2 : ℚ)), ("Te", 3 + 1/1000000000)] = 5 := by decide +kernel
example : natom [("Bi", (1/2 : ℚ)), ("Te", 1)] = 3/2 := by decide +kernel

/-! ### C17 -/

/-- what `weight_ave` computes, for a table without gaps on the compound -/
theorem weightAve_eq (table : List Char → Option (Option K)) (comp : PyDict (List Char) K) (w : List Char → K)
    (hw : ∀ e ∈ comp, table e.1 = some (some (w e.1))) :
    weightAve table comp = if natom comp = 0 then .error .zeroDivisionError
      else .ok ((comp.map (fun e => e.2 * w e.1)).sum / natom comp) := by
  have h1 : ∀ c : PyDict (List Char) K, (∀ e ∈ c, table e.1 = some (some (w e.1))) →
      weights table c = .ok (c.map (fun e => (e.1, some (w e.1)))) := by
    intro c
    induction c with
    | nil => intro _; rfl
    | cons e c ih =>
      intro h
      obtain ⟨k, v⟩ := e
      rw [weights, h (k, v) (by simp), ih (fun e he => h e (by simp [he]))]
      rfl
  have h2 : ∀ c : PyDict (List Char) K,
      weightSum (c.map Prod.snd) (c.map (fun e => (e.1, some (w e.1)))) = .ok (c.map (fun e => e.2 * w e.1)).sum := by
    intro c
    induction c with
    | nil => rfl
    | cons e c ih => simp only [List.map_cons, weightSum, ih, List.sum_cons]
  unfold weightAve
  rw [h1 comp hw]
  simp only [h2]

/-- **C17** The table of weights: the place of an element is its atomic number (the noble gases close the periods), every name but the placeholder is an element
symbol, no name occurs twice, and each weight is larger than that of the element before it but for the known exceptions. -/
theorem C17_table :
    atomicWeight.length = 119 ∧ atomicWeight[0]? = some ("XX", none) ∧ (atomicWeight.map Prod.fst).Nodup ∧
    [2, 10, 18, 36, 54, 86, 118].map (fun z => (atomicWeight.map Prod.fst)[z]?) = ["He", "Ne", "Ar", "Kr", "Xe", "Rn", "Og"].map some ∧
    (∀ p ∈ atomicWeight.drop 1, SymbolName p.1.toList ∧ knownElement p.1.toList = true ∧ p.2.isSome = true) ∧
    ∀ p ∈ (atomicWeight.drop 1).zip (atomicWeight.drop 2), ∃ a b, p.1.2 = some a ∧ p.2.2 = some b ∧ 0 < a ∧
      (a < b ∨ (p.1.1, p.2.1) ∈ [("Ar", "K"), ("Co", "Ni"), ("Te", "I"), ("Th", "Pa"), ("U", "Np"), ("Pu", "Am"), ("Po", "At"), ("Cm", "Bk"), ("Bh", "Hs"), ("Ts", "Og")] ∧ b ≤ a ∧ a < b + 2) := by
  have hs : ∀ p ∈ atomicWeight.drop 1, (match p.1.toList with | c :: r => isUpper c && r.all isLower | [] => false) = true ∧ knownElement p.1.toList = true ∧ p.2.isSome = true := by
    decide +kernel
  have hw : ∀ p ∈ (atomicWeight.drop 1).zip (atomicWeight.drop 2), (match p.1.2, p.2.2 with
      | some a, some b => decide (0 < a ∧ (a < b ∨ (p.1.1, p.2.1) ∈ [("Ar", "K"), ("Co", "Ni"), ("Te", "I"), ("Th", "Pa"), ("U", "Np"), ("Pu", "Am"), ("Po", "At"), ("Cm", "Bk"), ("Bh", "Hs"), ("Ts", "Og")] ∧ b ≤ a ∧ a < b + 2))
      | _, _ => false) = true := by
    decide +kernel
  refine ⟨by decide +kernel, by decide +kernel, by decide +kernel, by decide +kernel, fun p hp => ?_, fun p hp => ?_⟩
  · obtain ⟨h1, h2⟩ := hs p hp
    refine ⟨?_, h2⟩
    cases hc : p.1.toList with
    | nil => rw [hc] at h1; cases h1
    | cons c r =>
      rw [hc] at h1
      simp only [Bool.and_eq_true, List.all_eq_true] at h1
      exact ⟨c, r, rfl, h1.1, h1.2⟩
  · have h1 := hw p hp
    obtain ⟨⟨n1, o1⟩, ⟨n2, o2⟩⟩ := p
    cases o1 with
    | none => simp at h1
    | some a =>
      cases o2 with
      | none => simp at h1
      | some b => exact ⟨a, b, rfl, rfl, of_decide_eq_true h1⟩

/-- **C17 (bounds).** With positive amounts `weight_ave * natom` lies between the smallest and the largest weight times the
true total; so `weight_ave` itself lies between them when `natom` is the exact total. -/
theorem C17_bounds (table : List Char → Option (Option K)) (comp : PyDict (List Char) K) (w : List Char → K)
    (hw : ∀ e ∈ comp, table e.1 = some (some (w e.1))) (hpos : ∀ e ∈ comp, 0 < e.2) (lo hi a : K)
    (hlo : ∀ e ∈ comp, lo ≤ w e.1) (hhi : ∀ e ∈ comp, w e.1 ≤ hi) (ha : weightAve table comp = .ok a) :
    lo * total comp ≤ a * natom comp ∧ a * natom comp ≤ hi * total comp ∧
      (natom comp = total comp → lo ≤ a ∧ a ≤ hi) := by
  rw [weightAve_eq table comp w hw] at ha
  split at ha
  · cases ha
  · rename_i hne
    injection ha with ha; subst ha
    rw [div_mul_cancel₀ _ hne]
    have h1 : lo * total comp ≤ (comp.map (fun e => e.2 * w e.1)).sum := by
      unfold total; rw [← List.sum_map_mul_left]
      apply List.sum_le_sum
      intro e he
      rw [mul_comm]; exact mul_le_mul_of_nonneg_left (hlo e he) (hpos e he).le
    have h2 : (comp.map (fun e => e.2 * w e.1)).sum ≤ hi * total comp := by
      unfold total; rw [← List.sum_map_mul_left]
      apply List.sum_le_sum
      intro e he
      rw [mul_comm hi]; exact mul_le_mul_of_nonneg_left (hhi e he) (hpos e he).le
    refine ⟨h1, h2, fun hex => ?_⟩
    have hnn : 0 ≤ total comp := by
      unfold total
      apply List.sum_nonneg
      intro x hx
      obtain ⟨e, he, rfl⟩ := List.mem_map.mp hx
      exact (hpos e he).le
    have htot : 0 < natom comp := lt_of_le_of_ne (hex ▸ hnn) (Ne.symm hne)
    rw [← hex] at h1 h2
    exact ⟨(le_div_iff₀ htot).mpr h1, (div_le_iff₀ htot).mpr h2⟩

/-- **C17 (one element).** A single element has its own weight (when `natom` is exact and not 0). -/
theorem C17_single (table : List Char → Option (Option K)) (k : List Char) (x wk : K) (hx : x ≠ 0)
    (hw : table k = some (some wk)) (hex : natom [(k, x)] = x) : weightAve table [(k, x)] = .ok wk := by
  rw [weightAve_eq table _ (fun _ => wk) (by simpa using hw), hex]
  simp [hx, mul_comm x wk]

/-- **C17 (order).** `weight_ave` does not depend on the order of the elements. -/
theorem C17_order (table : List Char → Option (Option K)) (c1 c2 : PyDict (List Char) K) (hp : c1.Perm c2)
    (hw : ∀ e ∈ c1, ∃ w, table e.1 = some (some w)) : weightAve table c1 = weightAve table c2 := by
  classical
  let w : List Char → K := fun n => match table n with | some (some x) => x | _ => 0
  have hw' : ∀ e ∈ c1, table e.1 = some (some (w e.1)) := by
    intro e he; obtain ⟨x, hx⟩ := hw e he; simp only [w, hx]
  have hnat : natom c1 = natom c2 := by
    unfold natom total; rw [(hp.map Prod.snd).sum_eq]
  rw [weightAve_eq table c1 w hw', weightAve_eq table c2 w (fun e he => hw' e (hp.mem_iff.mpr he)), hnat,
    (hp.map (fun e => e.2 * w e.1)).sum_eq]

/-- **C17 (scale).** Multiplying all amounts by the same non-zero factor changes nothing as long as `natom` is exact. -/
theorem C17_scale (table : List Char → Option (Option K)) (comp : PyDict (List Char) K) (c : K) (hc : c ≠ 0)
    (hw : ∀ e ∈ comp, ∃ w, table e.1 = some (some w)) (h1 : natom comp = total comp)
    (h2 : natom (comp.map (fun e => (e.1, e.2 * c))) = total (comp.map (fun e => (e.1, e.2 * c)))) :
    weightAve table (comp.map (fun e => (e.1, e.2 * c))) = weightAve table comp := by
  classical
  let w : List Char → K := fun n => match table n with | some (some x) => x | _ => 0
  have hw' : ∀ e ∈ comp, table e.1 = some (some (w e.1)) := by
    intro e he; obtain ⟨x, hx⟩ := hw e he; simp only [w, hx]
  rw [weightAve_eq table comp w hw', weightAve_eq table _ w (by
    intro e he; obtain ⟨e', he', rfl⟩ := List.mem_map.mp he; exact hw' e' he'), h1, h2]
  have ht : total (comp.map (fun e => (e.1, e.2 * c))) = total comp * c := by
    unfold total; rw [List.map_map]; exact List.sum_map_mul_right comp Prod.snd _
  have hs : ((comp.map (fun e => (e.1, e.2 * c))).map (fun e => e.2 * w e.1)).sum =
      (comp.map (fun e => e.2 * w e.1)).sum * c := by
    rw [List.map_map, ← List.sum_map_mul_right]
    congr 1; apply List.map_congr_left; intro e _; simp only [Function.comp]; ring
  rw [ht, hs]
  by_cases hz : total comp = 0
  · simp [hz]
  · simp only [mul_eq_zero, hz, hc, or_self, if_false]
    congr 1
    exact mul_div_mul_right _ _ hc

/-- **C17 (unknown).** An element that is not in the table raises `KeyError`. -/
theorem C17_unknown (table : List Char → Option (Option K)) (comp : PyDict (List Char) K) (e : List Char × K)
    (he : e ∈ comp) (hu : table e.1 = none) : weightAve table comp = .error .keyError := by
  have : weights table comp = .error .keyError := by
    induction comp with
    | nil => simp at he
    | cons f c ih =>
      obtain ⟨k, v⟩ := f
      rw [weights]
      rcases List.mem_cons.mp he with rfl | he
      · simp only at hu; rw [hu]
      · cases table k with
        | none => rfl
        | some w => simp only [ih he]
  unfold weightAve; rw [this]

/-- what the project's table answers: the weight stored under the name, nothing for a name that is not in it -/
theorem weightTable_spec (name : List Char) :
    (∀ s q, (s, some q) ∈ atomicWeight → s.toList = name → weightTable (K := K) name = some (some (q : K))) ∧
    ((∀ p ∈ atomicWeight, p.1.toList ≠ name) → weightTable (K := K) name = none) := by
  constructor
  · intro s q hm hs
    have key : ∀ p ∈ atomicWeight, atomicWeight.find? (fun r => r.1.toList == p.1.toList) = some p := by decide +kernel
    have := key _ hm
    simp only [hs] at this
    unfold weightTable; rw [this]
    simp only [Option.map_some, Option.some.injEq]
    exact (Rat.cast_def q).symm
  · intro h
    unfold weightTable
    rw [List.find?_eq_none.mpr (by intro p hp; simpa using h p hp)]; rfl

/-- **C17 (with the project's table).** `Compound.weight_ave` of a compound made of elements of the periodic table is the
sum of amount times the stored weight of the element over `natom` (a `ZeroDivisionError` if that is 0); a name that is not
in the table anywhere in the compound is a `KeyError`. -/
theorem C17_project (comp : PyDict (List Char) K) :
    (∀ w : List Char → ℚ, (∀ e ∈ comp, (String.ofList e.1, some (w e.1)) ∈ atomicWeight) →
      weightAve weightTable comp = if natom comp = 0 then .error .zeroDivisionError
        else .ok ((comp.map (fun e => e.2 * (w e.1 : K))).sum / natom comp)) ∧
    ((∃ e ∈ comp, ∀ p ∈ atomicWeight, p.1 ≠ String.ofList e.1) → weightAve weightTable comp = .error .keyError) := by
  constructor
  · intro w hw
    exact weightAve_eq weightTable comp (fun n => (w n : K))
      (fun e he => (weightTable_spec e.1).1 _ _ (hw e he) (by simp))
  · rintro ⟨e, he, hn⟩
    refine C17_unknown weightTable comp e he ((weightTable_spec e.1).2 (fun p hp h => hn p hp ?_))
    rw [← h]; simp

/-- `C17_project`, first part: Bi2Te3 meets the hypothesis -/
example : ∀ e ∈ [("Bi".toList, (2 : ℚ)), ("Te".toList, 3)],
    (String.ofList e.1, some ((fun n => if n = "Bi".toList then (522451/2500 : ℚ) else 638/5) e.1)) ∈ atomicWeight := by decide +kernel

/-- `C17_project`, second part: `Xy` is not an element -/
example : ∃ e ∈ [("Bi".toList, (2 : ℚ)), ("Xy".toList, 3)], ∀ p ∈ atomicWeight, p.1 ≠ String.ofList e.1 :=
  ⟨("Xy".toList, 3), by simp, by decide +kernel⟩

/-- `C17_bounds` on Bi2Te3 with the project's table: about 160.16, between Te and Bi -/
example : ∃ a : ℚ, weightAve weightTable [("Bi".toList, (2 : ℚ)), ("Te".toList, 3)] = .ok a ∧ 160 < a ∧ a < 161 :=
  ⟨(2 * (522451/2500) + 3 * (638/5)) / 5, by decide +kernel, by norm_num, by norm_num⟩

/-! ### C18 -/

theorem total_scale (comp : PyDict (List Char) K) (s : K) :
    total (comp.map (fun e => (e.1, e.2 * s))) = total comp * s := by
  unfold total; rw [List.map_map]; exact List.sum_map_mul_right comp Prod.snd _

/-- what `from_compounds` is expected to store for one site: the compound itself, or all its amounts multiplied by one common
factor, such that their total is the requested number times total/natom -/
def SiteResult (comp : PyDict (List Char) K) (t : Option K) (out : PyDict (List Char) K) : Prop :=
  match t with
  | none => out = comp
  | some n => (∃ s : K, out = comp.map (fun e => (e.1, e.2 * s))) ∧ total out * natom comp = n * total comp

/-- **C18 (totals).** `from_compounds` with distinct site names gives every site its compound: unchanged without a
requested total, otherwise rescaled with the same elements and ratios so that its amounts total the requested number
(times total/natom, which is 1 unless `natom` has been rounded). -/
theorem C18_from_compounds (rows : List (PyDict (List Char) K × List Char × Option K))
    (hnd : (rows.map (fun r => r.2.1)).Nodup) (hz : ∀ r ∈ rows, r.2.2 ≠ none → natom r.1 ≠ 0) :
    ∃ alloy, fromCompounds (rows.map (fun r => some r.1)) (some (rows.map (fun r => r.2.1)))
        (some (rows.map (fun r => r.2.2))) = .ok alloy ∧
      keys alloy = rows.map (fun r => r.2.1) ∧
      ∀ r ∈ rows, ∃ out, get? alloy r.2.1 = some out ∧ SiteResult r.1 r.2.2 out := by
  let outOf : PyDict (List Char) K × List Char × Option K → PyDict (List Char) K := fun r =>
    match r.2.2 with
    | none => r.1
    | some n => r.1.map (fun e => (e.1, e.2 * (n / natom r.1)))
  have hgo : ∀ (l : List (PyDict (List Char) K × List Char × Option K)) (alloy : PyDict (List Char) (PyDict (List Char) K)),
      (∀ r ∈ l, r.2.2 ≠ none → natom r.1 ≠ 0) →
      fromCompoundsGo alloy ((l.map (fun r => some r.1)).zip ((l.map (fun r => r.2.1)).zip (l.map (fun r => r.2.2)))) =
        .ok (PyDict.update alloy (l.map (fun r => (r.2.1, outOf r)))) := by
    intro l
    induction l with
    | nil => intros; rfl
    | cons r l ih =>
      intro alloy hl
      obtain ⟨comp, site, t⟩ := r
      simp only [List.map_cons, List.zip_cons_cons]
      cases t with
      | none =>
        rw [fromCompoundsGo, ih _ (fun r hr => hl r (by simp [hr]))]
        simp only [update_cons]
        rfl
      | some n =>
        rw [fromCompoundsGo, if_neg (hl (comp, site, some n) (by simp) (by simp)), ih _ (fun r hr => hl r (by simp [hr]))]
        simp only [update_cons]
        rfl
  have hps : WF (rows.map (fun r => (r.2.1, outOf r))) := by
    unfold WF keys; rw [List.map_map]; exact hnd
  refine ⟨rows.map (fun r => (r.2.1, outOf r)), ?_, ?_, ?_⟩
  · simp only [fromCompounds, Option.getD_some]
    rw [hgo rows [] hz]
    exact congrArg _ (ofPairs_of_WF hps)
  · unfold keys; rw [List.map_map]; rfl
  · intro r hr
    refine ⟨outOf r, mem_get? hps (List.mem_map.mpr ⟨r, hr, rfl⟩), ?_⟩
    obtain ⟨comp, site, t⟩ := r
    cases t with
    | none => exact rfl
    | some n =>
      have hne : natom comp ≠ 0 := hz (comp, site, some n) hr (by simp)
      simp only [outOf, SiteResult]
      exact ⟨⟨_, rfl⟩, by rw [total_scale, mul_assoc, div_mul_cancel₀ _ hne, mul_comm]⟩

/-- **C18 (26 sites).** Without names more than 26 compounds are rejected; up to 26 get the names A, B, C, … -/
theorem C18_names (compounds : List (Option (PyDict (List Char) K))) (natoms : Option (List (Option K))) :
    (26 < compounds.length → fromCompounds compounds none natoms = .error .valueError) ∧
    (compounds.length ≤ 26 → fromCompounds compounds none natoms =
      fromCompounds compounds (some (("ABCDEFGHIJKLMNOPQRSTUVWXYZ".toList.take compounds.length).map (fun c => [c]))) natoms) := by
  constructor
  · intro h; simp [fromCompounds, Nat.not_le.mpr h]
  · intro h
    unfold fromCompounds
    simp only [h, if_true]
    have : (List.range compounds.length).map (fun i => [Char.ofNat (i + 65)]) =
        ("ABCDEFGHIJKLMNOPQRSTUVWXYZ".toList.take compounds.length).map (fun c => [c]) := by
      generalize compounds.length = n at h
      have h' : n < 27 := by omega
      revert h
      have : ∀ n < 27, (List.range n).map (fun i => [Char.ofNat (i + 65)]) =
        ("ABCDEFGHIJKLMNOPQRSTUVWXYZ".toList.take n).map (fun c => [c]) := by decide +kernel
      exact fun _ => this n h'
    rw [this]

/-- **C18 (fractions).** For an alloy made of compounds with non-zero `natom`, `all_sites(regular=True)` yields one entry
per site, in order: the site's `natom` and the amounts divided by it, which total 1 whenever `natom` is the exact total. -/
theorem C18_all_sites (sites : List (List Char × PyDict (List Char) K)) (hz : ∀ s ∈ sites, natom s.2 ≠ 0)
    (prev : Option (PyDict (List Char) K)) :
    allSites true prev (sites.map (fun s => (s.1, SiteVal.compound s.2))) =
      (sites.map (fun s => (s.1, s.2.map (fun e => (e.1, e.2 / natom s.2)), natom s.2)), .ok ()) ∧
    ∀ s ∈ sites, natom s.2 = total s.2 → total (s.2.map (fun e => (e.1, e.2 / natom s.2))) = 1 := by
  constructor
  · induction sites generalizing prev with
    | nil => rfl
    | cons s sites ih =>
      have hs := hz s (by simp)
      rw [List.map_cons, allSites]
      have hcomp : (if (true && decide (natom s.2 ≠ 1)) = true then normalise s.2 (natom s.2) else Except.ok s.2) =
          Except.ok (s.2.map (fun e => (e.1, e.2 / natom s.2))) := by
        by_cases h1 : natom s.2 = 1
        · simp [h1]
        · simp [h1, normalise, hs]
      simp only [hcomp]
      have := ih (fun s hs => hz s (by simp [hs])) (some (s.2.map (fun e => (e.1, e.2 / natom s.2))))
      simp only [this, List.map_cons]
  · intro s hs hex
    unfold total; rw [List.map_map]
    simp only [Function.comp_def, div_eq_mul_inv]
    rw [List.sum_map_mul_right]
    have : (s.2.map (fun x => x.2)).sum = natom s.2 := hex.symm
    rw [this]; exact mul_inv_cancel₀ (hz s hs)

/-- **C18 (finding).** A site the user assigned as a plain dictionary is not what `all_sites` reports: as the first site it
raises `UnboundLocalError`, later it repeats the previous site whatever the dictionary holds. -/
theorem C18_plain_dict_site (a b : List Char) (c d d' : PyDict (List Char) K) (regular : Bool) :
    allSites regular none [(a, .plain d)] = ([], .error .unboundLocalError) ∧
    (allSites false none [(a, .compound c), (b, .plain d)]).1 = [(a, c, natom c), (b, c, natom c)] ∧
    allSites regular none [(a, .compound c), (b, .plain d)] = allSites regular none [(a, .compound c), (b, .plain d')] :=
  ⟨rfl, rfl, rfl⟩

/-- `C18_from_compounds` on (Bi0.5Sb1.5) and Te with totals 2 and 3 -/
example : fromCompounds [some [("Bi".toList, (1 : ℚ)), ("Sb".toList, 3)], some [("Te".toList, 1)]]
    none (some [some 2, some 3]) =
    .ok [(['A'], [("Bi".toList, 1/2), ("Sb".toList, 3/2)]), (['B'], [("Te".toList, 3)])] := by decide +kernel
example : (allSites true none [(['A'], .compound [("Bi".toList, (1/2 : ℚ)), ("Sb".toList, 3/2)])]).1 =
    [(['A'], [("Bi".toList, 1/4), ("Sb".toList, 3/4)], 2)] := by decide +kernel

end Natom
end TEflow
