import Verif.Model.DeviceCli
import Verif.Model.Interp
import Verif.Model.Mixing

/-! # Model of whole runs of `tef-interp` and `tef-mixing`, /repo/src/teflow/interface.py:214-469

The file system is a map from names to texts (different names are different files).  Computed numbers are rationals; a number
read from a file keeps its sign bit. -/

namespace TEflow.ToolRuns

open Loader Interface TableFile Mathext

/-- the files: name to text -/
abbrev Files := List Char → Option (List Char)

/-- `open(name, 'w')` and writing `text` -/
def Files.write (fs : Files) (name text : List Char) : Files := fun n => if n = name then some text else fs n

/-- a computed number as a floating point number (a computed negative zero is not modelled) -/
def numOf (q : ℚ) : Num := ⟨decide (q < 0), |q|, abs_nonneg q⟩

/-- the columns of a table -/
def columns {V : Type} (rows : List (List V)) : List (List V) :=
  match rows with
  | [] => [[]]
  | r :: _ => (List.range r.length).map fun j => rows.filterMap fun s => s[j]?

/-- `np.loadtxt(name, unpack=True, ndmin=2)`: the columns; a file without data is one empty column -/
def loadColumns {V : Type} (float : List Char → Except PyErr V) (text : List Char) : Except PyErr (List (List V)) :=
  match loadtxt float text with
  | .error e => .error e
  | .ok rows => .ok (columns rows)

/-- the first column: `x2, *_ = np.loadtxt(outputfile, unpack=True, ndmin=2)`, interface.py:263 -/
def firstColumn {V : Type} (float : List Char → Except PyErr V) (text : List Char) : Except PyErr (List V) :=
  match loadColumns float text with
  | .error e => .error e
  | .ok [] => .error .valueError
  | .ok (x :: _) => .ok x

/-! ## `tef-interp` -/

/-- the options of `tef-interp`; an absent option is the empty text -/
structure InterpOptions where
  inputfile : List Char
  outputfile : List Char
  suffix : List Char
  bare : Bool
  method : List Char
  extrapolate : List Char
  npoints : Int
  range : List Char

/-- the name of the output file, interface.py:258 -/
def InterpOptions.output (o : InterpOptions) : List Char := suffixed o.outputfile o.inputfile o.suffix []

/-- the sampling points, interface.py:261-286, as they are held in memory -/
def sampling (float : List Char → Except PyErr Num) (o : InterpOptions) (x : List Num) (existing : Option (List Char)) :
    Except PyErr (List Num) :=
  match existing with
  | some text => firstColumn float text
  | none =>
    if o.range = [] ∧ x = [] then .error .indexError
    else (samplePoints (fun t => (float t).map Num.val) none o.range o.npoints ((x.head?.map Num.val).getD 0) ((x.getLast?.map Num.val).getD 0)).map
      (·.map numOf)

/-- `vinterp` as called at interface.py:303-307: `y` without a row is an array of shape `(0,)`, which is refused.  `interp` is
the interpolation of one column by a method and a fill value. -/
def callVinterp (argsort : List ℚ → List Nat) (interp : List Char → Option ℚ → List ℚ → List ℚ → List ℚ → Except PyErr (List ℚ))
    (x : List Num) (ys : List (List Num)) (method : List Char) (fill : Option ℚ) (x2 : List ℚ) : Except PyErr (List (List ℚ)) :=
  if ys = [] then .error .valueError
  else vinterp argsort (interp method fill) (x.map fun v => some v.val) (ys.map fun r => r.map fun v => some v.val) (x2.map some) true

/-- the rows `tef-interp` writes, interface.py:288-312, for the input columns and the sampling points -/
def interpRows (float : List Char → Except PyErr Num) (argsort : List ℚ → List Nat)
    (interp : List Char → Option ℚ → List ℚ → List ℚ → List ℚ → Except PyErr (List ℚ)) (o : InterpOptions)
    (x : List Num) (ys : List (List Num)) (x2 : List Num) : Except PyErr (List (List Num)) := do
  let datas ← interpColumns (fun t => (float t).map Num.val) (callVinterp argsort interp x ys) o.method o.extrapolate true (x2.map Num.val)
  let datas := datas.map (·.map numOf)
  vstackT (if o.bare then datas else x2 :: datas)

/-- the text `tef-interp` writes: everything before the output file is opened -/
def interpText (float : List Char → Except PyErr Num) (argsort : List ℚ → List Nat)
    (interp : List Char → Option ℚ → List ℚ → List ℚ → List ℚ → Except PyErr (List ℚ)) (info : List Char) (o : InterpOptions)
    (fs : Files) : Except PyErr (List Char) := do
  let text ← match fs o.inputfile with
    | none => .error .ioError
    | some t => .ok t
  match ← loadColumns float text with
  | [] => .error .valueError
  | x :: ys =>
    let x2 ← sampling float o x (fs o.output)
    let rows ← interpRows float argsort interp o x ys x2
    toFile (fixed 4) o.bare false (.rows rows) ("Interpolate via ".toList ++ o.method ++ " method".toList) info (.names [])

/-- `do_interp`, interface.py:214-315: the files after the run and whether it failed -/
def doInterp (float : List Char → Except PyErr Num) (argsort : List ℚ → List Nat)
    (interp : List Char → Option ℚ → List ℚ → List ℚ → List ℚ → Except PyErr (List ℚ)) (info : List Char) (o : InterpOptions)
    (fs : Files) : Files × Except PyErr Unit :=
  match interpText float argsort interp info o fs with
  | .error e => (fs, .error e)
  | .ok text => (fs.write o.output text, .ok ())

/-! ## `tef-mixing` -/

/-- `np.loadtxt(filename)`: one-row and one-column tables lose a dimension, a single number both -/
def squeezed (rows : List (List Num)) : Arr ℚ :=
  let vals := rows.flatten.map Num.val
  match rows with
  | [] => ⟨false, [0], vals⟩
  | [r] => if r.length = 1 then ⟨false, [], vals⟩ else ⟨false, [r.length], vals⟩
  | r :: s :: l => if r.length = 1 then ⟨false, [(r :: s :: l).length], vals⟩ else ⟨false, [(r :: s :: l).length, r.length], vals⟩

/-- cut a list into pieces of length `n` -/
def chunks {V : Type} (n : Nat) : Nat → List V → List (List V)
  | 0, _ => []
  | m + 1, l => l.take n :: chunks n m (l.drop n)

/-- what `np.savetxt` makes of an array: rows of a two-dimensional one, a column of a one-dimensional one, `ValueError` else -/
def saveRows (a : Arr ℚ) : Except PyErr (List (List Num)) :=
  match a.shape with
  | [m, n] => .ok (chunks n m (a.vals.map numOf))
  | [_] => .ok (a.vals.map fun v => [numOf v])
  | _ => .error .valueError

/-- the lines shown on the screen, interface.py:463-469: iterating over a one-dimensional array gives numbers, which are not
iterable (`TypeError`); an empty one shows nothing; a zero-dimensional array is not iterable either -/
def screenRows (a : Arr ℚ) : Except PyErr (List (List Num)) :=
  match a.shape with
  | [m, n] => .ok (chunks n m (a.vals.map numOf))
  | [0] => .ok []
  | _ => .error .typeError

/-- the options of `tef-mixing` (without `--extend`); an absent output file is the empty text -/
structure MixOptions where
  inputfile : List (List Char)
  outputfile : List Char
  bare : Bool
  labels : List (List Char)
  weight : Option (List Char)
  scale : ℚ

/-- one input file as an array -/
def readInput (float : List Char → Except PyErr Num) (fs : Files) (f : List Char) : Except PyErr (Arr ℚ) :=
  match fs f with
  | none => .error .ioError
  | some t => (loadtxt float t).map squeezed

/-- the mixed data, interface.py:438-457 -/
def mixedData (float : List Char → Except PyErr Num) (o : MixOptions) (fs : Files) : Except PyErr (Arr ℚ) := do
  let datas ← o.inputfile.mapM (readInput float fs)
  mixCommand (fun t => (float t).map Num.val) datas o.weight o.scale

/-- the screen output -/
def screenText (labels : List (List Char)) (rows : List (List Num)) : List Char :=
  (if labels = [] then "Result:".toList else "Result[".toList ++ join [' '] labels ++ "]:".toList) ++
    (rows.map fun r => "\n  ".toList ++ join [' '] (r.map (fixed 4))).flatten

/-- `do_mixing` without `--extend`, interface.py:438-469: the files after the run, and what is shown on the screen (empty if there
is an output file) or the error.  `np.savetxt` empties the output file before it looks at the data. -/
def doMixing (float : List Char → Except PyErr Num) (info : List Char) (o : MixOptions) (fs : Files) : Files × Except PyErr (List Char) :=
  match mixedData float o fs with
  | .error e => (fs, .error e)
  | .ok a =>
    if o.outputfile ≠ [] then
      match saveRows a with
      | .error e => (fs.write o.outputfile [], .error e)
      | .ok rows =>
        match toFile (fixed 4) o.bare false (.rows rows) "Mixed datafiles".toList info (.names o.labels) with
        | .error e => (fs, .error e)
        | .ok text => (fs.write o.outputfile text, .ok [])
    else
      match screenRows a with
      | .error e => (fs, .error e)
      | .ok rows => (fs, .ok (screenText o.labels rows))

end TEflow.ToolRuns
