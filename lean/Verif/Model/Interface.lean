import Mathlib.Algebra.Order.Floor.Ring
import Mathlib.Algebra.Order.Round
import Verif.Model.Mathext
import Verif.Model.Mixing
import Verif.Model.Engout
import Verif.Model.Instr

/-! # Model of the command line, /repo/src/teflow/interface.py

Texts are lists of characters, text files lists of lines.  argparse, the log messages, the time stamp and the formatting
of numbers are not modelled: the functions below start from the parsed options and end with the rows to be written. -/

namespace TEflow.Interface
open TEflow.Loader (splitOnChar startsWith strip isDigit digitVal pyRound)
open TEflow.Mathext (Arr mixing fermidirac smoothstep)
open TEflow.Engout (cumtrapz)

/-! ## File names -/

/-- `PurePath(path).name` (POSIX): the last component that is neither empty nor `.` -/
def pathName (path : List Char) : List Char :=
  (((splitOnChar '/' path).filter fun c => c ≠ [] ∧ c ≠ ['.']).getLast?).getD []

/-- `name.rfind('.')` (`none`: -1) -/
def lastDot : List Char → Option Nat
  | [] => none
  | c :: cs => match lastDot cs with
    | some i => some (i + 1)
    | none => if c = '.' then some 0 else none

/-- the cut between `PurePath(name).stem` and `.suffix` (Python before 3.14): the last dot, unless it is the first or the
last character -/
def stemLen (name : List Char) : Nat :=
  match lastDot name with
  | some i => if 0 < i ∧ i < name.length - 1 then i else name.length
  | none => name.length

/-- `PurePath(name).stem` -/
def stem (name : List Char) : List Char := name.take (stemLen name)
/-- `PurePath(name).suffix` -/
def suffixOf (name : List Char) : List Char := name.drop (stemLen name)

/-- `_suffixed(outputname, inputname, suffix, ext)`, interface.py:172-183.  `None` and the empty text are alike for
`outputname` and `ext`. -/
def suffixed (outputname inputname suffix ext : List Char) : List Char :=
  if outputname ≠ [] then outputname
  else
    let p := pathName inputname
    if suffixOf p ≠ [] then stem p ++ '_' :: suffix ++ (if ext ≠ [] then ext else suffixOf p)
    else stem p ++ '_' :: suffix

/-- the names of the files `tef-kappa` writes: main, rate, spec, cumu, subs, interface.py:1202-1245 -/
def kappaOutputs (outputname inputname suffix : List Char) : List (List Char) :=
  let outputf := suffixed outputname inputname suffix ".txt".toList
  [outputf, suffixed [] outputf "rate".toList [], suffixed [] outputf "spec".toList [],
   suffixed [] outputf "cumu".toList [], suffixed [] outputf "subs".toList ".cfg".toList]

/-! ## Dispatch -/

/-- the sub-commands, in the order they are tried -/
def commands : List (List Char) :=
  ["interp".toList, "mixing".toList, "ztdev".toList, "engout".toList, "format".toList, "cutoff".toList, "refine".toList,
   "band".toList, "kappa".toList]

/-- one character of `str.lower()`: ASCII letters, and the Kelvin sign, the only other character whose lower-case form
is one of the letters of the sub-commands (`İ` becomes two characters and cannot match) -/
def lowerC (c : Char) : Char := if c = '\u212a' then 'k' else c.toLower

/-- what `_do_main` does -/
inductive Action where
  | version
  | help
  | run (command : List Char) (args : List (List Char))
  deriving DecidableEq, Repr

/-- `_do_main(args)`, interface.py:122-155; an empty `args` means `sys.argv[1:]` -/
def doMain (args argv : List (List Char)) : Action :=
  match (if args ≠ [] then args else argv) with
  | [] => .version
  | a :: rest =>
    match commands.find? fun c => startsWith c (a.map lowerC) with
    | some c => .run c rest
    | none => .help

/-! ## Text helpers -/

/-- `str.split()`: `cur` is the word being read, reversed -/
def wordsGo : List Char → List Char → List (List Char)
  | cur, [] => if cur = [] then [] else [cur.reverse]
  | cur, c :: cs =>
    if pySpace c then (if cur = [] then wordsGo [] cs else cur.reverse :: wordsGo [] cs) else wordsGo (c :: cur) cs

/-- `str.split()` -/
def words (s : List Char) : List (List Char) := wordsGo [] s

/-- `line.split('#', 1)[0]` -/
def beforeHash (line : List Char) : List Char := line.takeWhile (· ≠ '#')

/-- `sep.join(items)` -/
def join (sep : List Char) : List (List Char) → List Char
  | [] => []
  | [a] => a
  | a :: b :: l => a ++ sep ++ join sep (b :: l)

/-- `l[i]` with Python's negative indices -/
def pyIndex {α : Type} (l : List α) (i : Int) : Except PyErr α :=
  let j := if i < 0 then i + l.length else i
  if j < 0 then .error .indexError else match l[j.toNat]? with
    | some a => .ok a
    | none => .error .indexError

/-! ## `tef-refine` -/

/-- the rows of items, interface.py:990-993 -/
def refineRows (lines : List (List Char)) : List (List (List Char)) :=
  (lines.map fun l => words (strip (beforeHash l))).filter (· ≠ [])

/-- the items picked from a row, interface.py:997-1002 (`none`: all of them) -/
def pickItems (usecols : Option (List Int)) (items : List (List Char)) : Except PyErr (List Char) :=
  match usecols with
  | none => .ok (join [' '] items)
  | some cols => (cols.mapM fun i => pyIndex items i).map (join [' '])

/-- the writing loop, interface.py:1010-1014: the rows are picked only while they are written -/
def refineWrite (usecols : Option (List Int)) : List (List (List Char)) → List (List Char) × Except PyErr Unit
  | [] => ([], .ok ())
  | items :: rest =>
    match pickItems usecols items with
    | .error e => ([], .error e)
    | .ok line => let r := refineWrite usecols rest; (line :: r.1, r.2)

/-- `tef-refine`, interface.py:966-1016: the lines of the output file, and how the command ends -/
def refine (header : List Char) (bare : Bool) (usecols : Option (List Int)) (lines : List (List Char)) :
    List (List Char) × Except PyErr Unit :=
  let r := refineWrite usecols (refineRows lines)
  ((if bare then [] else [header]) ++ r.1, r.2)

/-! ## `tef-mixing` -/

/-- `zip(*datas)` -/
def zipStar {α : Type} : List (List α) → List (List α)
  | [] => []
  | [l] => l.map ([·])
  | l :: l' :: ls => List.zipWith (· :: ·) l (zipStar (l' :: ls))

/-- the rows of one file: `--raw-extend` or `--extend` without padding, interface.py:389-397 -/
def extendRows (raw : Bool) (lines : List (List Char)) : List (List Char) :=
  if raw then lines.map strip else (lines.map fun l => strip (beforeHash l)).filter (· ≠ [])

/-- with padding: the rows of one file and the number of columns of its last row, interface.py:404-415 -/
def padRows (lines : List (List Char)) : List (List Char) × Nat :=
  let items := (lines.map fun l => words (strip (beforeHash l))).filter (· ≠ [])
  (items.map (join ['\t']), ((items.getLast?).map List.length).getD 0)

/-- the padded rows of one file, interface.py:421-425 -/
def padTo (pad : List Char) (n : Nat) (d : List (List Char) × Nat) : List (List Char) :=
  d.1 ++ List.replicate (n - d.1.length) (join ['\t'] (List.replicate d.2 pad))

/-- the rows written by `tef-mixing --extend`/`--raw-extend`, interface.py:376-444 (below the header) -/
def extend (raw : Bool) (padding : Option (List Char)) (files : List (List (List Char))) : List (List Char) :=
  match padding with
  | none => (zipStar (files.map (extendRows raw))).map (join [' '])
  | some pad =>
    let ds := files.map padRows
    let n := (ds.map fun d => d.1.length).foldl max 0
    (zipStar (ds.map (padTo pad n))).map (join ['\t'])

/-- the weights option, interface.py:449-458: `str.isdecimal` holds for a non-empty text of digits (Unicode digits other
than ASCII not modelled); `float` is Python's conversion -/
def mixWeight {K : Type} [NatCast K] (float : List Char → Except PyErr K) :
    Option (List Char) → Except PyErr (Option (List K))
  | none => .ok none
  | some w =>
    if w ≠ [] ∧ w.all isDigit then .ok (some (w.map fun c => (digitVal c : K)))
    else ((words w).mapM float).map some

/-- the scale option, interface.py:460-465 -/
def mixScale {K : Type} [Field K] [LinearOrder K] (s : K) : Option K := if |s| < 1 / 10000 then none else some s

/-- `tef-mixing` without `--extend`, interface.py:447-467 -/
def mixCommand {K : Type} [Field K] [LinearOrder K] (float : List Char → Except PyErr K) (datas : List (Arr K))
    (weight : Option (List Char)) (scale : K) : Except PyErr (Arr K) := do
  let w ← mixWeight float weight
  mixing datas w (mixScale scale)

/-! ## `tef-cutoff` -/

/-- the cut-off factor at one temperature, interface.py:925-944: method in lower case, `wd` is half the width -/
noncomputable def cutFactor (method : List Char) (tc width x : ℝ) : Except PyErr ℝ :=
  let wd := width / 2
  if method = "fd".toList ∨ method = "fermi-dirac".toList ∨ method = "fermidirac".toList then
    .ok (fermidirac (5 * (x - tc) / wd) false)
  else if method = "ss".toList ∨ method = "smoothstep".toList then .ok (smoothstep ((x - tc) / wd) false true)
  else .error .valueError

/-- the default of `-m`, interface.py:893 -/
def cutDefault : List Char := "bz".toList

/-- normalise Python column indices against `n` columns -/
def normCols (n : Nat) (cols : List Int) : Except PyErr (List Nat) := cols.mapM fun i => pyIndex (List.range n) i

/-- `tef-cutoff`, interface.py:911-960: rows of a table with `n` columns (the first one the temperature).  Indexing with a
list of columns reads every column once, so repeated indices do not multiply the factor twice. -/
noncomputable def cutoff (method : Option (List Char)) (tc width : ℝ) (columns : Option (List Int)) (bare : Bool) (n : Nat)
    (rows : List (List ℝ)) : Except PyErr (List (List ℝ)) := do
  let method := method.getD cutDefault
  let _ ← cutFactor method tc width 0
  let factors ← rows.mapM fun r => cutFactor method tc width (r.headD 0)
  let index ← match columns with
    | none => pure ((List.range n).drop 1)
    | some cols => normCols n cols
  return List.zipWith (fun f r =>
    if bare then index.map fun j => r.getD j 0 * f
    else r.mapIdx fun j v => if j ∈ index then v * f else v) factors rows

/-! ## `tef-format` -/

section Format
variable {K : Type} [Field K] [LinearOrder K] [FloorRing K]

/-- the automatic temperature series, interface.py:747-763.  `tmax` is the option (`0` counts as absent), `dataMax` the
largest temperature of the data; an empty series fails when its last entry is reported.  (`tstep = 0` divides by zero; the
kind of error depends on the type of the number.) -/
def tempSeries (tstep : K) (tmax : Option K) (dataMax : K) (noRt : Bool) : Except PyErr (List K) :=
  let tm := match tmax with | some t => if t = 0 then dataMax else t | none => dataMax
  if tstep = 0 then .error .zeroDivisionError
  else
    let T :=
      if tstep > 23 then
        let ts := (List.range (pyRound ((tm - 323) / tstep) + 1).toNat).map fun i : Nat => 323 + (i : K) * tstep
        if noRt then ts else 300 :: ts
      else (List.range (pyRound ((tm - 300) / tstep) + 1).toNat).map fun i : Nat => 300 + (i : K) * tstep
    if T = [] then .error .indexError else .ok T

end Format

/-- one character of `str.upper()` (ASCII; other characters are not modelled) -/
def upperC (c : Char) : Char := c.toUpper

/-- one method name, interface.py:794-807 -/
def refineMethod (method : List Char) : Except PyErr (List Char) :=
  let m := method.map upperC
  if startsWith "POLY".toList m then .ok ("poly".toList ++ [m.getLastD ' '])
  else match m with
    | [] => .error .indexError
    | c :: _ =>
      if c = 'L' then .ok "linear".toList
      else if c = 'C' then .ok "cubic".toList
      else if c = 'P' then .ok "pchip".toList
      else if c = 'A' then .ok "Akima".toList
      else if '1' ≤ c ∧ c ≤ '9' then .ok ("poly".toList ++ [c])
      else .error .valueError

/-- the methods for C, S, K, interface.py:779-807 -/
def formatMethods (option : List Char) : Except PyErr (List (List Char)) :=
  match words option with
  | [] => .error .valueError
  | [m] => [m, m, m].mapM refineMethod
  | [_, _] => .error .valueError
  | a :: b :: c :: _ => [a, b, c].mapM refineMethod

/-- the interpolated columns C, S, K, interface.py:809-816: `fetch` is `TEdatax.get(·, None)` (a pair of temperatures and
data), `interp` is `vinterp` at the temperatures of the output -/
def formatCSK {τ β : Type} (fetch : String → Option τ) (interp : List Char → τ → Except PyErr β) :
    List (String × List Char) → Except PyErr (PyDict String β × List String)
  | [] => .ok ([], [])
  | (prop, meth) :: rest =>
    match fetch prop with
    | none => (formatCSK fetch interp rest).map fun r => (r.1, prop :: r.2)
    | some d => match interp meth d with
      | .error e => .error e
      | .ok v => (formatCSK fetch interp rest).map fun r => ((prop, v) :: r.1, r.2)

/-- the data interpolated for the column `L`, interface.py:825-826: the loop variable `prop` still is `'K'` -/
def lorenzData {τ β : Type} (fetch : String → Option τ) (interp : List Char → τ → Except PyErr β) (methods : List (List Char)) :
    Except PyErr β :=
  match fetch "K" with
  | none => .error .valueError
  | some d => interp (methods.getD 1 []) d

/-- one row of the calculated table -/
structure FRow where
  T : ℝ
  C : ℝ
  S : ℝ
  K : ℝ

/-- `Ke = 1E-6*L*C*T`, interface.py:827 -/
noncomputable def fKe (L C T : ℝ) : ℝ := 1 / 1000000 * L * C * T
/-- `PF`, interface.py:849 -/
noncomputable def fPF (r : FRow) : ℝ := 1 / 1000000 * r.C * r.S * r.S
/-- `ZT`, interface.py:850 -/
noncomputable def fZT (r : FRow) : ℝ := 1 / 10000 * fPF r / r.K * r.T
/-- `CF`, interface.py:867 -/
noncomputable def fCF (r : FRow) : ℝ := 1000000 * (Real.sqrt (1 + fZT r) - 1) / (r.S * r.T)

/-- one entry of `ZTave`, interface.py:855-857 -/
noncomputable def fZTave1 (T0 : ℝ) (r : FRow) (RTh STh KTh : ℝ) : ℝ :=
  if |KTh| > 1 / 1000 then 1 / 1000000 * STh ^ 2 * ((T0 + r.T) / 2) / (RTh * KTh) else 1 * fZT r

/-- the column `ZTave`, interface.py:851-857 -/
noncomputable def fZTave (rows : List FRow) : List ℝ :=
  let R := (cumtrapz (rows.map fun r => (r.T, 10000 / r.C))).map (·.2)
  let S := (cumtrapz (rows.map fun r => (r.T, r.S))).map (·.2)
  let K := (cumtrapz (rows.map fun r => (r.T, r.K))).map (·.2)
  let T0 := match rows with | r :: _ => r.T | [] => 0
  List.zipWith (fun r q => fZTave1 T0 r q.1 q.2.1 q.2.2) rows (R.zip (S.zip K))

/-! ## `tef-interp` -/

section Interp
variable {K : Type} [Field K] [LinearOrder K] [FloorRing K]

/-- `np.arange(start, stop, step)` -/
def arange (start stop step : K) : Except PyErr (List K) :=
  if step = 0 then .error .zeroDivisionError
  else .ok ((List.range ⌈(stop - start) / step⌉.toNat).map fun i : Nat => start + (i : K) * step)

/-- `np.linspace(a, b, num=n)` -/
def linspace (a b : K) (n : Int) : Except PyErr (List K) :=
  if n < 0 then .error .valueError
  else if n = 1 then .ok [a]
  else .ok ((List.range n.toNat).map fun i : Nat => a + (i : K) * ((b - a) / (n - 1)))

/-- the sampling points, interface.py:259-285: the first column of the output file if there is one (`existing`), else the
range option (three numbers), else `npoints` between the first and the last abscissa -/
def samplePoints (float : List Char → Except PyErr K) (existing : Option (Except PyErr (List K)))
    (range : List Char) (npoints : Int) (first last : K) : Except PyErr (List K) :=
  match existing with
  | some r => r
  | none =>
    if range ≠ [] then
      match splitOnChar ':' (strip range) with
      | [a, b, c] => do
        let start ← float a
        let step ← float b
        let stop ← float c
        arange start (stop + 1 / 1000 * step) step
      | _ => .error .valueError
    else linspace first last npoints

/-- the method names accepted, interface.py:288-290 -/
def interpMethods : List (List Char) :=
  ["linear".toList, "line".toList, "cubic".toList, "pchip".toList, "Akima".toList, "poly1".toList, "poly2".toList,
   "poly3".toList, "poly4".toList, "poly5".toList, "poly6".toList, "poly7".toList, "poly8".toList, "poly9".toList]

/-- `tef-interp` after the sampling points are known, interface.py:287-313: `vinterp` gives one list per data column (or
an error).  For the linear methods the log message formats the fill value: a `TypeError` if it is `None` (option absent or
empty).  The result are the columns written. -/
def interpColumns (float : List Char → Except PyErr K)
    (vinterp : List Char → Option K → List K → Except PyErr (List (List K)))
    (method : List Char) (extrapolate : List Char) (bare : Bool) (x2 : List K) : Except PyErr (List (List K)) :=
  if method ∉ interpMethods then .error .valueError
  else do
    let datas ←
      if method = "linear".toList ∨ method = "line".toList then do
        let value ← if extrapolate ≠ [] then (float extrapolate).map some else pure none
        let datas ← vinterp method value x2
        match value with
        | none => .error .typeError
        | some _ => pure datas
      else vinterp method none x2
    return if bare then datas else x2 :: datas

end Interp

end TEflow.Interface
