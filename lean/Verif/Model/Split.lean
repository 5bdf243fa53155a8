import Mathlib.Algebra.Order.Group.Defs
import Verif.Model.Basic
import Verif.Model.Re

/-! # Model of `split_monotonic` (/repo/src/teflow/mathext.py:139-228) -/

namespace TEflow.Mathext

/-- `np.diff` -/
def diffs {R : Type} [Sub R] : List R → List R
  | a :: b :: l => (b - a) :: diffs (b :: l)
  | _ => []

/-- one character of `sign_ASD`, mathext.py:213 -/
def stepLetter {R : Type} [Neg R] [LT R] [DecidableLT R] (eps s : R) : Char :=
  if eps < s then 'A' else if s < -eps then 'D' else 'S'

/-- `sign_ASD`, mathext.py:213 -/
def stepLetters {R : Type} [Sub R] [Neg R] [LT R] [DecidableLT R] (eps : R) (x : List R) : List Char :=
  (diffs x).map (stepLetter eps)

/-- `a(?:[aS]*a)?` -/
def segRe (a : Char) : Re :=
  .seq (.chr a) (.opt (.seq (.star (.cls fun c => c == a || c == 'S')) (.chr a)))

/-- `ends.upper()[0]` / `trend.upper()[0]` as far as the code distinguishes it (mathext.py:187, 199).  The only
characters whose upper-case form starts with one of the letters `A B D L N R` are these letters in either case and
`ẚ` (upper case `Aʾ`). -/
def upperFirst : List Char → Option Char
  | [] => none
  | c :: _ => some (
      if c = 'a' ∨ c = 'ẚ' then 'A' else if c = 'b' then 'B' else if c = 'd' then 'D' else if c = 'l' then 'L'
      else if c = 'n' then 'N' else if c = 'r' then 'R' else c)

/-- the shifts of the end points, mathext.py:187-197; `IndexError` for the empty string -/
def endShift (ends : List Char) : Except PyErr (Nat × Nat) :=
  match upperFirst ends with
  | none => .error .indexError
  | some 'L' => .ok (0, 0)
  | some 'R' => .ok (1, 1)
  | some 'B' => .ok (0, 1)
  | some 'N' => .ok (1, 0)
  | some _ => .error .valueError

/-- the pattern, mathext.py:199-209; `compile` stands for `re.compile` of a user-supplied pattern (only patterns that
never match the empty text are covered by `Re.findGo`) -/
def trendPattern (compile : List Char → Except PyErr Re) (trend : List Char) : Except PyErr Re :=
  match upperFirst trend with
  | none => .error .indexError
  | some 'B' => .ok (.alt (segRe 'A') (segRe 'D'))
  | some 'A' => .ok (segRe 'A')
  | some 'D' => .ok (segRe 'D')
  | some '#' => compile (trend.drop 1)
  | some _ => .error .valueError

/-- one entry of the three result lists -/
structure Piece (R : Type) where
  interval : List R
  sign : Int
  start : Nat
  stop : Nat
  deriving DecidableEq, Repr

/-- the entry of `signs` for a match starting with this letter, mathext.py:222 -/
def signOf (c : Option Char) : Int := if c = some 'A' then 1 else if c = some 'D' then -1 else 0

/-- the loop body, mathext.py:218-223 (`m.start()`, `m.end()` are the lengths of the text before) -/
def pieceOf {R : Type} (x : List R) (left right : Nat) (m : Pos × Pos) : Piece R :=
  let s := m.1.before.length + left
  let e := m.2.before.length + right
  { interval := (x.take e).drop s,
    sign := signOf m.1.rest.head?,
    start := s, stop := e }

/-- `split_monotonic(x, trend, ends, eps)`, mathext.py:139-224, for a flat array -/
def splitMonotonic {R : Type} [Sub R] [Neg R] [LT R] [DecidableLT R] (compile : List Char → Except PyErr Re)
    (x : List R) (trend ends : List Char) (eps : R) : Except PyErr (List (Piece R)) := do
  let (left, right) ← endShift ends
  let pattern ← trendPattern compile trend
  let w := stepLetters eps x
  return (Re.findGo pattern w.length ⟨[], w⟩).map (pieceOf x left right)

end TEflow.Mathext
