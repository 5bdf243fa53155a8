import Verif.Model.ToolRuns
import Verif.Model.Instr

/-! # Model of whole runs of `tef-format`, /repo/src/teflow/interface.py:630-870

The file system is the map of `ToolRuns`.  Parsing of the command line, log messages and the time stamp are not modelled.  The
interpolation methods (numpy, scipy), the band model behind `-c` and the calculated columns are parameters; the calculated columns
are modelled in `Interface` (C65). -/

namespace TEflow.FormatRun

open Loader Interface TableFile Mathext ToolRuns

/-! ## Floating point numbers with NaN and infinities -/

/-- a floating point number -/
inductive Fl where
  | num (x : Num)
  | nan
  | inf (neg : Bool)
deriving DecidableEq

/-- its value, if it is finite (`np.isfinite`) -/
def Fl.val? : Fl → Option ℚ
  | .num x => some x.val
  | _ => none

/-- a computed number -/
def Fl.ofRat (q : ℚ) : Fl := .num (numOf q)

/-- `'%.4f' % x` -/
def render4 : Fl → List Char
  | .num x => fixed 4 x
  | .nan => "nan".toList
  | .inf neg => if neg then "-inf".toList else "inf".toList

/-- the arrays of a dataset: temperatures and values -/
abbrev TEdata := Dataset (List Fl) (List Fl)

/-! ## The data -/

/-- the options of `tef-format` as argparse delivers them; an absent file name is the empty text, `stored` is `stored_params` -/
structure Options where
  inputfile : List Char
  outputfile : List Char
  suffix : List Char
  bare : Bool
  headers : Bool
  data : Bool
  calculate : Bool
  gap : Option ℚ
  method : List Char
  group : List Char
  tstep : ℚ
  tmax : Option ℚ
  noRt : Bool
  stored : List (String × List Char)

/-- what comes from elsewhere: `float` (Python and `np.loadtxt`), `np.argsort`, the interpolation of one property by a method, the average
atomic weight of a sample, the density expression, the section `entry` of a configuration text (`none`: there is none), the columns
L, Ke, Kp of the band model for a gap and the absolute values of T, C, S, K, and the columns PF, ZT, ZTave, CF for T, C, S, K -/
structure Env where
  float : List Char → Except PyErr Fl
  argsort : List ℚ → List Nat
  interp : List Char → List ℚ → List ℚ → List ℚ → Except PyErr (List ℚ)
  weight : List Char → Except PyErr ℚ
  eval : List Char → Except PyErr ℚ
  entry : List Char → Except PyErr (Option (PyDict String (List Char)))
  band : Option ℚ → List (List ℚ) → Except PyErr (List Fl × List Fl × List Fl)
  derived : List (List ℚ) → Except PyErr (List Fl × List Fl × List Fl × List Fl)

/-- the delimiter of `TEdataset2.from_file`, loader.py:821-822 -/
def formatDelimiter : Re := .cls fun c => c == '\t' || c == ';' || c == ','

/-- `TEdataset2.from_file(inputfile, group)` for the text of the file, loader.py:819-835, and interface.py:720-722 -/
def dataFromText (env : Env) (group text : List Char) : Except PyErr TEdata :=
  let groups := (Re.findAll propRe group).map String.ofList
  match columnsTE2 (fun v => (Fl.val? v).isSome) groups
      (parseDatafile (some formatDelimiter) (fun t => (env.float t).toOption) Fl.nan (linesOf text)) with
  | .error e => .error e
  | .ok cols => initTE2 cols groups

/-- one overriding parameter, interface.py:728-735: the instruments (`INSTRMETA`) get the prefix `file:` unless they have it -/
def overriding (p : String × List Char) : String × List Char :=
  if p.1 = "ZEM" ∨ p.1 = "CTA" ∨ p.1 = "LFA" then
    let value := strip p.2
    (p.1, if startsWith "file:".toList value then value else "file: ".toList ++ value)
  else p

/-- reading a file -/
def readFile (fs : Files) (name : List Char) : Except PyErr (List Char) :=
  match fs name with
  | none => .error .ioError
  | some t => .ok t

/-- `parse_TEfile(inputfile, specify=overriden)`, loader.py:944-1032 and interface.py:727-736 (numbers in instrument files are finite) -/
def dataFromInstruments (env : Env) (stored : List (String × List Char)) (fs : Files) (text : List Char) : Except PyErr TEdata :=
  match env.entry text with
  | .error e => .error e
  | .ok entry =>
    match parseTEfile (K := ℚ) ⟨readFile fs, env.weight, env.eval, fun t => ((env.float t).toOption).bind Fl.val?⟩ entry
        (some (stored.map overriding)) with
    | .error e => .error e
    | .ok (cols, group) => initTE2 (cols.map fun c => c.map Fl.ofRat) group

/-- the data of a run, interface.py:717-737 -/
def inputData (env : Env) (o : Options) (fs : Files) : Except PyErr TEdata :=
  match readFile fs o.inputfile with
  | .error e => .error e
  | .ok text => if o.data then dataFromText env o.group text else dataFromInstruments env o.stored fs text

/-- `1E4/x` -/
def invertRat (v : Option ℚ) : Option ℚ := v.bind fun q => if q = 0 then none else some (10000 / q)

/-- a product of finite numbers -/
def mulRat (c : ℚ) (a b : Option ℚ) : Option ℚ := a.bind fun x => b.map fun y => c * x * y

/-- `TEdatax.get(prop, None)` for the properties C, S, K (loader.py:579-591, 807-817); `none` is `(None, None)`, entries `none` are
not finite -/
def fetch (ds : TEdata) (prop : String) : Option (List (Option ℚ) × List (Option ℚ)) :=
  match PyDict.get? ds prop with
  | some e => some (e.temp.map Fl.val?, e.data.map Fl.val?)
  | none =>
    if prop = "C" then
      match PyDict.get? ds "R" with
      | some r => some (r.temp.map Fl.val?, (r.data.map Fl.val?).map invertRat)
      | none =>
        match PyDict.get? ds "N", PyDict.get? ds "U" with
        | some n, some u =>
          if n.tidx = u.tidx then
            some (n.temp.map Fl.val?, List.zipWith (mulRat qCharge) (n.data.map Fl.val?) (u.data.map Fl.val?))
          else none
        | _, _ => none
    else none

/-! ## Temperatures -/

/-- `max(...)`: `ValueError` for an empty list -/
def maxOf : List ℚ → Except PyErr ℚ
  | [] => .error .valueError
  | a :: l => .ok (l.foldl max a)

/-- the largest temperature, interface.py:751: `max(T.max() for T, *_ in TEdatax.values())` -/
def largestT (ds : TEdata) : Except PyErr ℚ := do
  let l ← ds.mapM fun p => maxOf (p.2.temp.filterMap Fl.val?)
  maxOf l

/-- is a maximum given on the command line?  `0` counts as absent, interface.py:751 -/
def tmaxGiven (o : Options) : Bool :=
  match o.tmax with
  | some t => decide (t ≠ 0)
  | none => false

/-- the temperatures of the output, interface.py:743-774 -/
def temperatures (env : Env) (o : Options) (ds : TEdata) (existing : Option (List Char)) : Except PyErr (List Fl) :=
  match existing with
  | some text => firstColumn env.float text
  | none =>
    match (if tmaxGiven o then .ok 0 else largestT ds) with
    | .error e => .error e
    | .ok m => (tempSeries o.tstep o.tmax m o.noRt).map fun l => l.map Fl.ofRat

/-! ## The columns -/

/-- `vinterp(tx, px, T, method=meth)`, interface.py:816 -/
def interpolate (env : Env) (T : List Fl) (meth : List Char) (d : List (Option ℚ) × List (Option ℚ)) : Except PyErr (List ℚ) :=
  match vinterp env.argsort (env.interp meth) d.1 [d.2] (T.map Fl.val?) true with
  | .error e => .error e
  | .ok (r :: _) => .ok r
  | .ok [] => .error .valueError

/-- L, Ke, Kp, interface.py:825-845; `cols` are T, C, S, K -/
def lorenz (env : Env) (o : Options) (ds : TEdata) (T : List Fl) (methods : List (List Char)) (t c s k : List ℚ) :
    Except PyErr (List Fl × List Fl × List Fl) :=
  match PyDict.get? ds "L" with
  | some _ =>
    match lorenzData (fetch ds) (interpolate env T) methods with
    | .error e => .error e
    | .ok l =>
      let ke := List.zipWith (fun x y => x * y) (List.zipWith (fun x y => 1 / 1000000 * x * y) l c) t
      .ok (l.map Fl.ofRat, ke.map Fl.ofRat, (List.zipWith (fun x y => x - y) k ke).map Fl.ofRat)
  | none => env.band o.gap ([t, c, s, k].map fun col => col.map fun q => |q|)

/-- the columns of `-c`, interface.py:819-868 -/
def calculated (env : Env) (o : Options) (ds : TEdata) (T : List Fl) (methods : List (List Char)) (out : PyDict String (List ℚ)) :
    Except PyErr (PyDict String (List Fl)) :=
  let col := fun p => (PyDict.get? out p).getD []
  let t := T.filterMap Fl.val?
  match lorenz env o ds T methods t (col "C") (col "S") (col "K") with
  | .error e => .error e
  | .ok (l, ke, kp) =>
    match env.derived [t, col "C", col "S", col "K"] with
    | .error e => .error e
    | .ok (pf, zt, ztave, cf) => .ok [("L", l), ("Ke", ke), ("Kp", kp), ("PF", pf), ("ZT", zt), ("ZTave", ztave), ("CF", cf)]

/-- the table, interface.py:777-868: the dictionary `out` -/
def outColumns (env : Env) (o : Options) (ds : TEdata) (T : List Fl) : Except PyErr (PyDict String (List Fl)) :=
  match formatMethods o.method with
  | .error e => .error e
  | .ok methods =>
    match formatCSK (fetch ds) (interpolate env T) (["C", "S", "K"].zip methods) with
    | .error e => .error e
    | .ok (out, miss) =>
      let first := ("T", T) :: out.map fun p => (p.1, p.2.map Fl.ofRat)
      if o.calculate then
        if miss ≠ [] then .error .valueError
        else (calculated env o ds T methods out).map fun l => first ++ l
      else .ok first

/-! ## The run -/

/-- the name of the output file, interface.py:740 -/
def Options.output (o : Options) : List Char := suffixed o.outputfile o.inputfile o.suffix ".txt".toList

/-- the text written: everything before the output file is opened -/
def formatText (env : Env) (info : List Char) (o : Options) (fs : Files) : Except PyErr (List Char) :=
  match inputData env o fs with
  | .error e => .error e
  | .ok ds =>
    match temperatures env o ds (fs o.output) with
    | .error e => .error e
    | .ok T =>
      match outColumns env o ds T with
      | .error e => .error e
      | .ok out => toFile render4 o.bare o.headers (.columns out) "Formated thermoelectric data".toList info (.names [])

/-- `do_format`, interface.py:715-870: the files after the run and whether it failed -/
def doFormat (env : Env) (info : List Char) (o : Options) (fs : Files) : Files × Except PyErr Unit :=
  match formatText env info o fs with
  | .error e => (fs, .error e)
  | .ok text => (fs.write o.output text, .ok ())

end TEflow.FormatRun
