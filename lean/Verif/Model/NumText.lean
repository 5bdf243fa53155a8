import Mathlib.Data.Int.Log
import Verif.Model.TableFile

/-! # Model of Python's number formats `%.{d}E`, `%.{p}g` and of `float`

Used by /repo/src/teflow/interface.py:1101 (`%.6E`), loader.py:385 (`%.9g`, amounts in formulas), kappa.py:1607 (`:.6g`, fitted values in
the substituted configuration).  Numbers are exact: a finite double is a rational number, and Python formats its exact value, ties to even;
`float` gives the exact value of the text (Python then takes the nearest double). -/

namespace TEflow.NumText

open TableFile

/-- `x ≥ 0` rounded to `p > 0` significant digits: the digits as a number and the exponent of the first one -/
def sig (p : Nat) (x : ℚ) : Nat × ℤ :=
  if x = 0 then (0, 0)
  else
    let e := Int.log 10 x
    let n := halfEven (x * (10 : ℚ) ^ ((p : ℤ) - 1 - e))
    if n = 10 ^ p then (10 ^ (p - 1), e + 1) else (n, e)

/-- the sign -/
def signText (neg : Bool) : List Char := if neg then ['-'] else []

/-- digits without the zeros at the end -/
def stripZeros (f : List Char) : List Char := (f.reverse.dropWhile (· = '0')).reverse

/-- decimals after a point, if there are any -/
def frac : List Char → List Char
  | [] => []
  | f => '.' :: f

/-- the number `n / 10^d`, with all `d` decimals or without zeros at the end -/
def mant (strip : Bool) (d n : Nat) : List Char :=
  padded 1 (n / 10 ^ d) ++ frac (if strip then stripZeros (padded d (n % 10 ^ d)) else padded d (n % 10 ^ d))

/-- the exponent: sign and at least two digits -/
def expText (e : ℤ) : List Char := (if e < 0 then '-' else '+') :: padded 2 e.natAbs

/-- `'%.{d}E' % x` -/
def sci (d : Nat) (x : Num) : List Char :=
  signText x.neg ++ (mant false d (sig (d + 1) x.mag).1 ++ 'E' :: expText (sig (d + 1) x.mag).2)

/-- `'%.{p}g' % x` for `p > 0` -/
def general (p : Nat) (x : Num) : List Char :=
  signText x.neg ++
    (if -4 ≤ (sig p x.mag).2 ∧ (sig p x.mag).2 < p then mant true ((p : ℤ) - 1 - (sig p x.mag).2).toNat (sig p x.mag).1
    else mant true (p - 1) (sig p x.mag).1 ++ 'e' :: expText (sig p x.mag).2)

/-! ## `float` -/

/-- a sign, if there is one -/
def readSign : List Char → Bool × List Char
  | '-' :: t => (true, t)
  | '+' :: t => (false, t)
  | t => (false, t)

/-- digits with at most one point among them: the digits as a number and the number of decimals -/
def readMant (t : List Char) : Option (Nat × Nat) :=
  let a := t.takeWhile (· ≠ '.')
  let b := (t.dropWhile (· ≠ '.')).drop 1
  if a = [] ∧ b = [] then none else (digitsVal 0 (a ++ b)).map fun n => (n, b.length)

/-- the exponent -/
def readExp (t : List Char) : Option ℤ :=
  if (readSign t).2 = [] then none else (digitsVal 0 (readSign t).2).map fun n => if (readSign t).1 then -(n : ℤ) else n

/-- the letter of the exponent -/
def isE (c : Char) : Bool := c = 'e' || c = 'E'

/-- `float(text)` for a text of decimal digits with optional sign, point and exponent (not modelled: white space around, underscores, `inf`,
`nan`, other digits than the ASCII ones; all are errors here) -/
def readNum (text : List Char) : Except PyErr Num :=
  let t := (readSign text).2
  match readMant (t.takeWhile fun c => !isE c), (match t.dropWhile fun c => !isE c with | [] => some 0 | _ :: r => readExp r) with
  | some (n, k), some e => .ok ⟨(readSign text).1, (n : ℚ) / 10 ^ k * (10 : ℚ) ^ e, by positivity⟩
  | _, _ => .error .valueError

end TEflow.NumText
