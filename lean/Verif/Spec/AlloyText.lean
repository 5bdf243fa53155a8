import Verif.Model.AlloyText
import Verif.Spec.Compound

/-! # Independent description of flat alloy formulas such as `(Bi0.5Sb1.5) Te2.7 Se0.3` -/

namespace TEflow.Loader

/-- what stands for one site: an element symbol, or a composition in parentheses -/
inductive Part where
  | element (name : List Char)
  | group (inner : List Char)
  deriving DecidableEq, Repr

/-- how the part is written -/
def Part.text : Part → List Char
  | .element n => n
  | .group g => '(' :: g ++ [')']

/-- the composition of the site, as a formula without parentheses -/
def Part.formula : Part → List Char
  | .element n => n
  | .group g => g

/-- an element symbol (that does not start with the reserved word), or a non-empty text on one line without parentheses -/
def Part.Ok : Part → Prop
  | .element n => SymbolName n ∧ ¬ "Jalloyed".toList <+: n
  | .group g => g ≠ [] ∧ '(' ∉ g ∧ ')' ∉ g ∧ '\n' ∉ g

/-- a site of the formula: the part, what stands between it and its amount, the text of the amount, the amount, and what
separates it from the next site -/
structure Term (K : Type) where
  part : Part
  fill : List Char
  num : List Char
  amount : K
  sep : List Char

variable {K : Type} [Field K]

/-- how the term is written -/
def Term.text (t : Term K) : List Char := t.part.text ++ t.fill ++ t.num ++ t.sep

/-- blanks, underscores and backslashes -/
def gapChar (c : Char) : Bool := c == ' ' || c == '_' || c == '\\'

/-- the part is well formed; the amount is a plain decimal, or left out and then 1 -/
def Term.Ok (t : Term K) : Prop :=
  t.part.Ok ∧ (∀ c ∈ t.fill ++ t.sep, gapChar c = true) ∧
    ((t.num = [] ∧ t.fill = [] ∧ t.amount = 1) ∨ PlainDecimal t.num t.amount)

/-- the whole formula -/
def formulaText (ts : List (Term K)) : List Char := (ts.map Term.text).flatten

/-- the sites of a formula: the different parts in order of first appearance, each with its last amount
(`dict((part, amount) for …)`) -/
def sitesOf (ts : List (Term K)) : PyDict Part K := PyDict.ofPairs (ts.map (fun t => (t.part, t.amount)))

/-- the composition does not leave its stoichiometry open: it is a single element, or not all amounts are 1 -/
def Determined [LinearOrder K] (c : PyDict (List Char) K) : Prop :=
  c.length ≤ 1 ∨ ∃ e ∈ c, 1 / 100000000 ≤ |e.2 - 1|

end TEflow.Loader
