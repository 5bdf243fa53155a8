import Mathlib.Algebra.Order.Floor.Ring
import Mathlib.Algebra.Order.Field.Basic
import Mathlib.Algebra.BigOperators.Group.List.Basic
import Verif.Model.Basic
import Verif.Model.Re
import Verif.Model.Elements

/-! # Model of `Compound` and `Alloy`, /repo/src/teflow/loader.py:324-511

Element symbols and texts are lists of characters; amounts are elements of an ordered field `K`. -/

namespace TEflow.Loader

open PyDict

/-- `[A-Z]` -/
def isUpper (c : Char) : Bool := 'A' ≤ c && c ≤ 'Z'
/-- `[a-z]` -/
def isLower (c : Char) : Bool := 'a' ≤ c && c ≤ 'z'
/-- `\d`, ASCII digits only -/
def isDigit (c : Char) : Bool := '0' ≤ c && c ≤ '9'
/-- `[ _\-\(\\]` -/
def isFill (c : Char) : Bool := c == ' ' || c == '_' || c == '-' || c == '(' || c == '\\'

/-- `(?P<name>[A-Z][a-z]*)`, loader.py:417 -/
def nameRe : Re := .seq (.cls isUpper) (.star (.cls isLower))
/-- `[ _\-\(\\]*`, loader.py:417 -/
def fillRe : Re := .star (.cls isFill)
/-- `(?P<num>\d*\.?\d*)`, loader.py:417 -/
def numRe : Re := .seq (.star (.cls isDigit)) (.seq (.opt (.chr '.')) (.star (.cls isDigit)))

/-- the groups `name` and `num` of the successive matches of the pattern in `formula`, loader.py:417-419, 425 -/
def formulaMatches (formula : List Char) : List (List Char × List Char) :=
  (Re.findPartsGo [nameRe, fillRe, numRe] formula.length ⟨[], formula⟩).map (fun m =>
    match m.2 with
    | [b0, b1, b2] => (Re.between m.1 b0, Re.between b1 b2)
    | _ => ([], []))

/-- value of a decimal digit -/
def digitVal (c : Char) : Nat := c.toNat - '0'.toNat

/-- `int(digits)` for a text of digits -/
def digitsVal (ds : List Char) : Nat := ds.foldl (fun n c => 10 * n + digitVal c) 0

variable {K : Type} [Field K]

/-- `float(num_) if '.' in num_ else int(num_)` with `num_ = num or '1'`, loader.py:425-426, for texts matching
`\d*\.?\d*`: the only such text `float` rejects is a lone dot.  (Python's limit on the number of digits of
`int` is not modelled.) -/
def amount (num : List Char) : Except PyErr K :=
  let num' := if num.isEmpty then ['1'] else num
  if '.' ∈ num' then
    let a := num'.takeWhile (· != '.')
    let b := (num'.dropWhile (· != '.')).drop 1
    if a.isEmpty && b.isEmpty then .error .valueError
    else .ok ((digitsVal a : K) + (digitsVal b : K) / 10 ^ b.length)
  else .ok (digitsVal num' : K)

/-- the loop of `Compound.from_string`, loader.py:418-426 -/
def fromStringGo (known : List Char → Bool) (skip raise : Bool) :
    PyDict (List Char) K → List (List Char × List Char) → Except PyErr (PyDict (List Char) K)
  | comp, [] => .ok comp
  | comp, (name, num) :: ms =>
    if !known (name.take 2) && raise then .error .valueError                     -- 420-422
    else if !known (name.take 2) && skip then fromStringGo known skip raise comp ms  -- 423-424
    else match amount num with
      | .error e => .error e
      | .ok x => fromStringGo known skip raise (PyDict.set comp name x) ms        -- 426

/-- `Compound.from_string`, loader.py:412-427; `known` says whether a name is a field of `AtomicWeight` -/
def fromString (known : List Char → Bool) (skip raise : Bool) (formula : List Char) :
    Except PyErr (PyDict (List Char) K) :=
  fromStringGo known skip raise [] (formulaMatches formula)

/-- `name in AtomicWeight._fields` -/
def knownElement (name : List Char) : Bool := atomicWeight.any (fun p => p.1.toList == name)

/-- the `style` argument of `to_string`: the three OriginLab spellings, `'join'`, anything else -/
inductive Style where
  | origin | join | split
  deriving DecidableEq, Repr

/-- the text for one element, loader.py:390-395 / 399-404; `fmt` is `fmt % num` -/
def elementText (fmt : K → List Char) (origin omitOne : Bool) (e : List Char × K) : List Char :=
  let num := fmt e.2
  if omitOne && num == ['1'] then e.1
  else if origin then e.1 ++ ['\\', '-', '('] ++ num ++ [')']
  else e.1 ++ num

/-- `' '.join(parts)` -/
def joinBlank : List (List Char) → List Char
  | [] => []
  | [a] => a
  | a :: b :: r => a ++ [' '] ++ joinBlank (b :: r)

/-- `Compound.to_string`, loader.py:382-409 -/
def toText (fmt : K → List Char) (style : Style) (omitOne : Bool) (comp : PyDict (List Char) K) : List Char :=
  match style with
  | .origin => (comp.map (elementText fmt true omitOne)).flatten
  | .join => (comp.map (elementText fmt false omitOne)).flatten
  | .split => joinBlank (comp.map (elementText fmt false omitOne))

section Replace
variable {κ ν : Type} [DecidableEq κ]

/-- the `while True: key, val = self.popitem() …` loop, loader.py:370-376, on the reversed entries of `self`;
returns the remaining entries (reversed) and `poped`.  `popitem` on an empty dictionary is a `KeyError`. -/
def popLoop (old new : κ) : List (κ × ν) → List (κ × ν) → Except PyErr (List (κ × ν) × List (κ × ν))
  | [], _ => .error .keyError
  | (k, v) :: r, poped => if k = old then .ok (r, poped ++ [(new, v)]) else popLoop old new r (poped ++ [(k, v)])

/-- `Compound.replace`, loader.py:360-379; returns the compound after the call and the outcome -/
def replace (comp : PyDict κ ν) (old new : κ) (matchOrder : Bool) : PyDict κ ν × Except PyErr Unit :=
  if !has comp old then (comp, .error .keyError)                         -- 364-365
  else if has comp new then (comp, .error .keyError)                     -- 366-367
  else if matchOrder then
    match popLoop old new comp.reverse [] with
    | .error e => (comp, .error e)
    | .ok (r, poped) => (PyDict.update r.reverse poped.reverse, .ok ())  -- 377
  else match get? comp old with
    | none => (comp, .error .keyError)
    | some v => (PyDict.set (PyDict.erase comp old) new v, .ok ())       -- 379

end Replace

variable [LinearOrder K] [FloorRing K]

/-- Python's `round` to an integer: halves go to the even neighbour -/
def pyRound (x : K) : Int :=
  if x - ⌊x⌋ < 1 / 2 then ⌊x⌋
  else if 1 / 2 < x - ⌊x⌋ then ⌊x⌋ + 1
  else if ⌊x⌋ % 2 = 0 then ⌊x⌋ else ⌊x⌋ + 1

/-- the amounts of a compound added up -/
def total {κ : Type} (comp : PyDict κ K) : K := (comp.map Prod.snd).sum

/-- `Compound.natom`, loader.py:329-338 -/
def natom {κ : Type} (comp : PyDict κ K) : K :=
  let n := total comp
  let r : K := (pyRound n : K)
  if |n - r| < 1 / 100000000 then r else n

/-- `Compound.weights`, loader.py:340-352; `table` gives for each field of `AtomicWeight` its entry (`none` inside
is the placeholder object) -/
def weights (table : List Char → Option (Option K)) :
    PyDict (List Char) K → Except PyErr (List (List Char × Option K))
  | [] => .ok []
  | (k, _) :: r => match table k with
    | none => .error .keyError
    | some w => match weights table r with
      | .error e => .error e
      | .ok ws => .ok ((k, w) :: ws)

/-- `sum(n*w for n, w in zip(…))`, loader.py:358; multiplying the placeholder object is a `TypeError` -/
def weightSum : List K → List (List Char × Option K) → Except PyErr K
  | n :: ns, (_, w) :: ws => match w with
    | none => .error .typeError
    | some w => match weightSum ns ws with
      | .error e => .error e
      | .ok s => .ok (n * w + s)
  | _, _ => .ok 0

/-- `Compound.weight_ave`, loader.py:354-359 -/
def weightAve (table : List Char → Option (Option K)) (comp : PyDict (List Char) K) : Except PyErr K :=
  match weights table comp with
  | .error e => .error e
  | .ok ws => match weightSum (comp.map Prod.snd) ws with
    | .error e => .error e
    | .ok s => if natom comp = 0 then .error .zeroDivisionError else .ok (s / natom comp)

/-- the table actually used: `AtomicWeight` -/
def weightTable (name : List Char) : Option (Option K) :=
  (atomicWeight.find? (fun p => p.1.toList == name)).map (fun p => p.2.map (fun (q : ℚ) => (q.num : K) / (q.den : K)))

section Alloy

/-- a value stored under a site of an `Alloy` (it is a dictionary the user can write to) -/
inductive SiteVal (K : Type) where
  | compound (c : PyDict (List Char) K)
  | plain (c : PyDict (List Char) K)
  | other

/-- the loop of `Alloy.from_compounds`, loader.py:501-511; `none` stands for an object that is not a dictionary -/
def fromCompoundsGo : PyDict (List Char) (PyDict (List Char) K) →
    List (Option (PyDict (List Char) K) × List Char × Option K) → Except PyErr (PyDict (List Char) (PyDict (List Char) K))
  | alloy, [] => .ok alloy
  | alloy, (none, _, _) :: _ => .error .typeError
  | alloy, (some comp, site, none) :: r => fromCompoundsGo (PyDict.set alloy site comp) r
  | alloy, (some comp, site, some n) :: r =>
    if natom comp = 0 then .error .zeroDivisionError
    else
      let scale := n / natom comp                                          -- 505
      fromCompoundsGo (PyDict.set alloy site (comp.map (fun e => (e.1, e.2 * scale)))) r

/-- `Alloy.from_compounds`, loader.py:486-511 -/
def fromCompounds (compounds : List (Option (PyDict (List Char) K))) (names : Option (List (List Char)))
    (natoms : Option (List (Option K))) : Except PyErr (PyDict (List Char) (PyDict (List Char) K)) :=
  let ncomp := compounds.length
  match (match names with
    | some ns => Except.ok ns
    | none => if ncomp ≤ 26 then .ok ((List.range ncomp).map (fun i => [Char.ofNat (i + 65)]))
              else .error PyErr.valueError) with
  | .error e => .error e
  | .ok ns =>
    let ts := natoms.getD (List.replicate ncomp none)                       -- 497-498
    fromCompoundsGo [] (compounds.zip (ns.zip ts))

/-- one entry produced by `all_sites`: site, compound and its number of atoms -/
abbrev SiteOut (K : Type) := List Char × PyDict (List Char) K × K

/-- `Compound((key, val/natom) for …)` of loader.py:446; dividing by zero raises (nothing to divide: no error) -/
def normalise (comp : PyDict (List Char) K) (n : K) : Except PyErr (PyDict (List Char) K) :=
  if n = 0 && !comp.isEmpty then .error .zeroDivisionError else .ok (comp.map (fun e => (e.1, e.2 / n)))

/-- `Alloy.all_sites` run to its end, loader.py:431-447.  `prev` is the local variable `comp` (unbound at first),
which the branch for plain dictionaries reads.  Returns what was yielded, and the outcome. -/
def allSites (regular : Bool) : Option (PyDict (List Char) K) → List (List Char × SiteVal K) →
    List (SiteOut K) × Except PyErr Unit
  | _, [] => ([], .ok ())
  | prev, (site, v) :: r =>
    match (match v with
      | .compound c => Except.ok c
      | .plain _ => match prev with
        | none => .error PyErr.unboundLocalError
        | some p => .ok p
      | .other => .error .typeError) with
    | .error e => ([], .error e)
    | .ok comp =>
      let n := natom comp
      match (if regular && n ≠ 1 then normalise comp n else .ok comp) with
      | .error e => ([], .error e)
      | .ok comp' => let rest := allSites regular (some comp') r; ((site, comp', n) :: rest.1, rest.2)

end Alloy

end TEflow.Loader
