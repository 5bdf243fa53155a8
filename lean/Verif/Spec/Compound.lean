import Verif.Model.Compound

/-! # Independent specifications for chemical formulas -/

namespace TEflow.Loader

/-- A symbol occurs wherever an upper-case letter stands.  Its name is the letter with the lower-case letters that follow;
its amount is the longest text `digits[.digits]` after the name and any fill characters. -/
def symbolAt : List Char → Option (List Char × List Char)
  | [] => none
  | c :: r =>
    if isUpper c then
      let r1 := r.dropWhile isLower
      let r2 := r1.dropWhile isFill
      let r3 := r2.dropWhile isDigit
      some (c :: r.takeWhile isLower,
        r2.takeWhile isDigit ++
          (if r3.head? = some '.' then '.' :: (r3.drop 1).takeWhile isDigit else []))
    else none

/-- all symbols of a text, from left to right -/
def symbols (formula : List Char) : List (List Char × List Char) := formula.tails.filterMap symbolAt

/-- `t` is a plain decimal number text (`12`, `0.5`, …) whose value is `x` -/
def PlainDecimal {K : Type} [Field K] (t : List Char) (x : K) : Prop :=
  (t ≠ [] ∧ (∀ c ∈ t, isDigit c) ∧ x = (digitsVal t : K)) ∨
  ∃ a b : List Char, t = a ++ '.' :: b ∧ a ≠ [] ∧ (∀ c ∈ a, isDigit c) ∧ (∀ c ∈ b, isDigit c) ∧
    x = (digitsVal a : K) + (digitsVal b : K) / 10 ^ b.length

/-- an element symbol: an upper-case letter followed by lower-case letters -/
def SymbolName (n : List Char) : Prop := ∃ c r, n = c :: r ∧ isUpper c ∧ ∀ x ∈ r, isLower x

end TEflow.Loader
