import Mathlib.Algebra.Order.Floor.Ring
import Mathlib.Algebra.Order.Field.Rat
import Mathlib.Data.Rat.Floor
import Mathlib.Data.Nat.Digits.Defs
import Mathlib.Tactic.Positivity
import Verif.Model.Basic
import Verif.Model.Dataset
import Verif.Model.Interface

/-! # Model of `_to_file`, /repo/src/teflow/interface.py:186-206, and of the numpy functions the tables go through

`np.savetxt` and `np.loadtxt` are modelled as far as the code uses them: text files with `\n` line ends, whitespace between the
numbers, `#` comments.  Numbers are written by `render` (`fmt % x`) and read by `float`; the format `%.{d}f` and its reading as a
decimal number are modelled exactly, rounding to the nearest double while reading is not. -/

namespace TEflow.TableFile

open Loader Interface

variable {V : Type}

/-! ## numpy -/

/-- `text.replace('\n', '\n' + comments)` -/
def replaceNewline (comments : List Char) : List Char → List Char
  | [] => []
  | c :: cs => if c = '\n' then '\n' :: (comments ++ replaceNewline comments cs) else c :: replaceNewline comments cs

/-- `np.savetxt(f, rows, fmt=fmt, header=header, comments=comments)`: the text of the file -/
def savetxt (render : V → List Char) (rows : List (List V)) (header comments : List Char) : List Char :=
  (if header = [] then [] else comments ++ replaceNewline comments header ++ ['\n']) ++
    (rows.map fun r => join [' '] (r.map render) ++ ['\n']).flatten

/-- the lines of a text file: `cur` is the line being read, reversed; a last line without line end counts if it is not empty -/
def linesGo : List Char → List Char → List (List Char)
  | cur, [] => if cur = [] then [] else [cur.reverse]
  | cur, c :: cs => if c = '\n' then cur.reverse :: linesGo [] cs else linesGo (c :: cur) cs

/-- the lines of a text file, without their line ends -/
def linesOf (text : List Char) : List (List Char) := linesGo [] text

/-- all rows have the same number of columns -/
def rectangular : List (List V) → Bool
  | [] => true
  | r :: rs => rs.all fun s => s.length == r.length

/-- `np.loadtxt(f, ndmin=2)` (rows; `unpack=True` transposes): comments and empty lines are dropped, every item must be a number
(`float` raises `ValueError`), all rows must be equally long -/
def loadtxt (float : List Char → Except PyErr V) (text : List Char) : Except PyErr (List (List V)) := do
  let rows ← (((linesOf text).map fun l => words (beforeHash l)).filter (· ≠ [])).mapM fun r => r.mapM float
  if rectangular rows then return rows else throw .valueError

/-- `np.vstack(columns).T`: `ValueError` without a column or for columns of different lengths -/
def vstackT (columns : List (List V)) : Except PyErr (List (List V)) :=
  match columns with
  | [] => .error .valueError
  | c :: cs =>
    if (c :: cs).all fun x => x.length == c.length then
      .ok ((List.range c.length).map fun i => (c :: cs).filterMap fun x => x[i]?)
    else .error .valueError

/-! ## `_to_file` -/

/-- the argument `labels`: a sequence of names or a text -/
inductive Labels where
  | names (l : List (List Char))
  | text (s : List Char)

/-- `bool(labels)` -/
def Labels.truthy : Labels → Bool
  | .names l => l ≠ []
  | .text s => s ≠ []

/-- the labels as a text, interface.py:198 -/
def Labels.joined : Labels → List Char
  | .names l => join [' ', ' '] l
  | .text s => s

/-- the data: a table (rows) or a dictionary of columns -/
inductive Data (V : Type) where
  | rows (l : List (List V))
  | columns (d : PyDict String (List V))

/-- labels and rows, interface.py:190-192 -/
def tableOf (labels : Labels) : Data V → Except PyErr (Labels × List (List V))
  | .rows l => .ok (labels, l)
  | .columns d =>
    match vstackT (d.map Prod.snd) with
    | .error e => .error e
    | .ok rows => .ok (if labels.truthy then labels else .names (d.map fun p => p.1.toList), rows)

/-- the first line of the header, interface.py:197; `info` is `f'{TIME} {INFO}'` -/
def title (header info : List Char) : List Char := if header = [] then info else header ++ " - ".toList ++ info

/-- the arguments `header` and `comments` of `savetxt`, interface.py:197-204 -/
def headerOf (headers : Bool) (header info labels : List Char) : List Char × List Char :=
  if headers then (if labels = [] then title header info else labels, [])
  else (if labels = [] then title header info else title header info ++ '\n' :: labels, ['#'])

/-- `_to_file`, interface.py:186-206: the text of the file written -/
def toFile (render : V → List Char) (bare headers : Bool) (data : Data V) (header info : List Char) (labels : Labels) :
    Except PyErr (List Char) :=
  match tableOf labels data with
  | .error e => .error e
  | .ok (labels, rows) =>
    if bare then .ok (savetxt render rows [] ['#', ' '])
    else .ok (savetxt render rows (headerOf headers header info labels.joined).1 (headerOf headers header info labels.joined).2)

/-! ## The format `%.{d}f` -/

/-- a finite floating point number: sign (of its own, there is a negative zero) and magnitude -/
structure Num where
  neg : Bool
  mag : ℚ
  nonneg : 0 ≤ mag
deriving DecidableEq

/-- its value -/
def Num.val (x : Num) : ℚ := if x.neg then -x.mag else x.mag

/-- the nearest integer, ties to even -/
def halfEven (x : ℚ) : Nat :=
  let n := ⌊x⌋.toNat
  if 2 * (x - n) < 1 then n else if 1 < 2 * (x - n) then n + 1 else if n % 2 = 0 then n else n + 1

/-- the decimal digits of `n`, at least `d` of them -/
def padded (d n : Nat) : List Char :=
  let t := (Nat.digits 10 n).reverse.map Nat.digitChar
  List.replicate (d - t.length) '0' ++ t

/-- `'%.{d}f' % x` for `d > 0` -/
def fixed (d : Nat) (x : Num) : List Char :=
  let n := halfEven (x.mag * 10 ^ d)
  (if x.neg then ['-'] else []) ++ padded 1 (n / 10 ^ d) ++ '.' :: padded d (n % 10 ^ d)

/-- the value of a digit -/
def digitVal (c : Char) : Option Nat := if '0' ≤ c ∧ c ≤ '9' then some (c.toNat - '0'.toNat) else none

/-- the value of a text of digits; none if it has other characters -/
def digitsVal : Nat → List Char → Option Nat
  | n, [] => some n
  | n, c :: cs => match digitVal c with
    | none => none
    | some v => digitsVal (10 * n + v) cs

/-- `float(text)` for texts `[-]digits.digits` (other forms Python accepts are not modelled: they are errors here) -/
def readFixed (text : List Char) : Except PyErr Num :=
  let (neg, t) := match text with
    | '-' :: t => (true, t)
    | t => (false, t)
  let a := t.takeWhile (· ≠ '.')
  let b := (t.dropWhile (· ≠ '.')).drop 1
  match digitsVal 0 a, digitsVal 0 b with
  | some n, some m => if a = [] ∨ b = [] then .error .valueError else .ok ⟨neg, n + m / 10 ^ b.length, by positivity⟩
  | _, _ => .error .valueError

end TEflow.TableFile
