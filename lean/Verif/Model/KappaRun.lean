import Verif.Model.KappaFit
import Verif.Model.KappaWire
import Verif.Model.CfgText
import Verif.Model.ToolRuns

/-! # Model of whole runs of `tef-kappa`, /repo/src/teflow/kappa.py:1475-1703 and interface.py:1151-1246

The file system is a map from names to texts (line ends are `\n`).  Numbers are reals.  Not modelled: logging, interpolation (`$`) in
configuration files.  What the code calls and is not modelled is an argument: `Env`. -/

namespace TEflow.KappaRun

noncomputable section

open PyDict Re Loader Interface TableFile ToolRuns KappaCfg

/-- what the code calls: Python's `float` and `int`, scipy's `quad` and `curve_fit` (for abscissas, ordinates, start values, lower and upper
bounds), the formats `:.6g` and `%.6f`, the recursion limit, the substitution for names of variables that are patterns
(`KappaCfg.substitutedFile` gives `none`), and `f'{TIME} {INFO}'` -/
structure Env where
  float : List Char → Except PyErr ℝ
  int : List Char → Except PyErr Int
  quad : (ℝ → ℝ) → ℝ → ℝ → ℝ
  search : List ℝ → List ℝ → List ℝ → List ℝ → List ℝ → KappaVar.Search (List ℝ)
  fmt : ℝ → List Char
  render : ℝ → List Char
  limit : Nat
  pattern : List (List Char × KappaVar.Var) → List (List Char) → Except PyErr (List (List Char))
  info : List Char

/-- the errors of a run: those of Python and those of the reader of configurations -/
inductive RunErr where
  | py (e : PyErr)
  | cfg (e : CfgText.CfgErr)
  deriving DecidableEq

/-- an error of Python -/
def liftErr {α : Type} : Except PyErr α → Except RunErr α
  | .error e => .error (.py e)
  | .ok x => .ok x

/-! ## Reading -/

/-- `f.readlines()`, or the lines of a file: with their line ends; `cur` is the line being read, reversed -/
def rawGo : List Char → List Char → List (List Char)
  | cur, [] => if cur = [] then [] else [cur.reverse]
  | cur, c :: cs => if c = '\n' then (c :: cur).reverse :: rawGo [] cs else rawGo (c :: cur) cs

/-- the lines of a file, with their line ends -/
def rawLines (text : List Char) : List (List Char) := rawGo [] text

/-- the options of the section `entry` -/
abbrev Entry := PyDict String (List Char)

/-- `getboolean` of `configparser` -/
def getBoolean (e : Entry) (k : String) (dflt : Bool) : Except PyErr Bool :=
  match get? e k with
  | none => .ok dflt
  | some t =>
    if String.ofList (t.map lowerAscii) ∈ ["1", "yes", "true", "on"] then .ok true
    else if String.ofList (t.map lowerAscii) ∈ ["0", "no", "false", "off"] then .ok false
    else .error .valueError

/-- `getint`, `getfloat`, `getseq`: a converter and a fallback -/
def getConv {α : Type} (conv : List Char → Except PyErr α) (e : Entry) (k : String) (dflt : α) : Except PyErr α :=
  match get? e k with
  | none => .ok dflt
  | some t => conv t

/-- `parse_array`, utils.py:354-363: the columns of a file or of the text itself -/
def parseArray (float : List Char → Except PyErr ℝ) (fs : Files) (text : List Char) : Except PyErr (List (List ℝ)) :=
  if "file:".toList.isPrefixOf (strip text) then
    match fs (strip ((strip text).drop 5)) with
    | none => .error .ioError
    | some t => loadColumns float t
  else if "array:".toList.isPrefixOf (strip text) then loadColumns float (strip ((strip text).drop 6))
  else loadColumns float (strip text)

/-- `entry.update(specify)`, kappa.py:1485-1487 -/
def update (specify : Entry) (e : Entry) : Entry := specify.foldl (fun d p => PyDict.set d p.1 p.2) e

/-- the configuration with the updated section `entry` -/
def updateCfg (specify : Entry) (cfg : Config) : Config := cfg.map fun s => if s.1 = "entry".toList then (s.1, update specify s.2) else s

/-! ## The fit -/

/-- what the parameter sets hold: value times scale (`KappaVar`); the variables of a configuration are never constrained, so that `value` is
the stored value -/
def envOf (s : KappaVar.St) (i : Nat) : ℝ :=
  match s.obj i with
  | none => 0
  | some o => o.value * o.scale

/-- `model(x)` -/
def evalAt (E : Env) (o : Obj) (xs : List ℝ) (s : KappaVar.St) : Except PyErr (List ℝ) :=
  match kappaOf E.quad (envOf s) E.limit o with
  | .error e => .error e
  | .ok f => .ok (xs.map f)

/-- the experimental data, kappa.py:1565-1569 -/
def expdata (E : Env) (fs : Files) (e : Entry) : Except PyErr (List ℝ × List ℝ) :=
  match get? e "expdata" with
  | none => .error .valueError
  | some t =>
    match parseArray E.float fs t with
    | .error e => .error e
    | .ok (x :: y :: _) => .ok (x, y)
    | .ok _ => .error .valueError

/-- reading the data and fitting, kappa.py:1563-1581: the abscissas and the state afterwards.  Mechanisms have no `fit`. -/
def fitStep (E : Env) (fs : Files) (e : Entry) (o : Obj) (vars : List Nat) (s : KappaVar.St) : Except PyErr (Option (List ℝ) × KappaVar.St) :=
  if vars = [] then .ok (none, s)
  else
    match expdata E fs e with
    | .error e => .error e
    | .ok (x, y) =>
      if o.ty ∈ kappaTypes then
        match KappaVar.fit (evalAt E o x) (E.search x y) (vars.map some) false {} s with
        | (.error e, _) => .error e
        | (.ok _, _, s1) => .ok (some x, s1)
      else .error .attributeError

/-- the fitted variables with their tags and attributes -/
def fittedVars (l : List (List Char × VarVal)) (s : KappaVar.St) : List (List Char × KappaVar.Var) :=
  l.filterMap fun p => match p.2 with
    | .const _ => none
    | .var i => (s.obj i).map fun o => (p.1, o)

/-- `subs`, kappa.py:1583-1612 -/
def subsStep (E : Env) (e : Entry) (l : List (List Char × VarVal)) (s : KappaVar.St) (lines : List (List Char)) :
    Except PyErr (Option (List (List Char))) :=
  if fitting l = [] then .ok none
  else
    match getBoolean e "substituted" false with
    | .error e => .error e
    | .ok false => .ok none
    | .ok true =>
      match (substitutedFile E.fmt (fittedVars l s) lines).getD (E.pattern (fittedVars l s) lines) with
      | .error e => .error e
      | .ok r => .ok (some r)

/-! ## The prediction and the details of a Debye model -/

/-- `npoints`, kappa.py:1615 -/
def npoints (E : Env) (e : Entry) : Except PyErr Int := (getConv E.int e "npoints" 101).map fun n => |n|

/-- the points of the prediction, kappa.py:1616-1629 -/
def pointsStep (E : Env) (e : Entry) (n : Int) (data : Option (List ℝ)) : Except PyErr (List ℝ) :=
  match getConv (Utils.parseSeq E.float) e "predict" [] with
  | .error e => .error e
  | .ok (p :: ps) => .ok (p :: ps)
  | .ok [] =>
    match getConv E.float e "margin" (5 / 100) with
    | .error e => .error e
    | .ok m =>
      match data with
      | none => .error .runtimeError
      | some [] => .error .valueError
      | some (x :: xs) => KappaCfg.predX [] (some (x, xs)) m n

/-- a `KappaDebye` object, kappa.py:308-342 -/
def debyeOf (env : Nat → ℝ) (sub : Obj → Except PyErr (ℝ → ℝ)) (o : Obj) : Except PyErr Kappa.Debye := do
  let vs ← posarg env o "vs"
  let td ← posarg env o "td"
  let cs ← o.components.mapM (component env sub)
  Kappa.Debye.make vs td cs

/-- labelled columns -/
abbrev Cols := List (List Char × List ℝ)

/-- a dictionary for every point as columns; the keys do not depend on the point -/
def colsOf (f : ℝ → PyDict Kappa.Tag ℝ) (xs : List ℝ) : Cols := (keys (f 0)).map fun k => (k, xs.map fun x => (get? (f x) k).getD 0)

/-- the object if it is a `KappaDebye`; the attributes used in kappa.py:1645-1703 do not exist in other models -/
def asDebye (d : Option Kappa.Debye) : Except PyErr Kappa.Debye :=
  match d with
  | none => .error .attributeError
  | some d => .ok d

/-- the unit names that need an attribute of the Debye model, kappa.py:1667-1672 -/
def unitNeedsDebye (float : List Char → Except PyErr ℝ) (t : List Char) : Bool :=
  match float t with
  | .ok _ => false
  | .error _ => !prefixCI "thz" t && (prefixCI "omega_d" t || prefixCI "wd" t || prefixCI "w_d" t || prefixCI "norm" t || prefixCI "reduce" t || prefixCI "x" t)

/-- `funit`, kappa.py:1656-1680 -/
def unitStep (E : Env) (e : Entry) (d : Option Kappa.Debye) (temper : ℝ) : Except PyErr ℝ :=
  match d with
  | some d => .ok (freqUnit E.float d.wd temper ((get? e "frequnit").getD "2pi.THz".toList))
  | none =>
    if unitNeedsDebye E.float ((get? e "frequnit").getD "2pi.THz".toList) then .error .attributeError
    else .ok (freqUnit E.float 0 temper ((get? e "frequnit").getD "2pi.THz".toList))

/-- the columns of the prediction, kappa.py:1630-1653 -/
def splitStep (E : Env) (e : Entry) (d : Option Kappa.Debye) (predX : List ℝ) (pred : Cols) : Except PyErr Cols :=
  match getBoolean e "splitkappa" true with
  | .error e => .error e
  | .ok false => .ok pred
  | .ok true =>
    match asDebye d with
    | .error e => .error e
    | .ok d => .ok ((debyeColumns E.quad d true).map fun p => (p.1, predX.map p.2))

/-- abscissas and columns of a detail file, if it is asked for -/
abbrev Detail := Option (List ℝ × Cols)

/-- the scattering rates, kappa.py:1682-1688 -/
def rateStep (e : Entry) (d : Option Kappa.Debye) (n : Int) (temper funit : ℝ) : Except PyErr Detail :=
  match getBoolean e "scattering" true with
  | .error e => .error e
  | .ok false => .ok none
  | .ok true =>
    match asDebye d with
    | .error e => .error e
    | .ok d =>
      match linspace 0 d.wd n with
      | .error e => .error e
      | .ok xs => .ok (some (xs.map (· / funit), colsOf (fun w => d.scattering w temper true) xs))

/-- the spectral thermal conductivity, kappa.py:1689-1695 -/
def specStep (e : Entry) (d : Option Kappa.Debye) (n : Int) (temper funit : ℝ) : Except PyErr Detail :=
  match getBoolean e "spectral" true with
  | .error e => .error e
  | .ok false => .ok none
  | .ok true =>
    match asDebye d with
    | .error e => .error e
    | .ok d =>
      match linspace 0 d.wd n with
      | .error e => .error e
      | .ok xs => .ok (some (xs.map (· / funit), (colsOf (fun w => d.spectral w temper true) xs).map fun p => (p.1, p.2.map (· * funit))))

/-- the cumulative thermal conductivity, kappa.py:1696-1702 -/
def cumuStep (e : Entry) (d : Option Kappa.Debye) (n : Int) (temper : ℝ) : Except PyErr Detail :=
  match getBoolean e "cumulate" true with
  | .error e => .error e
  | .ok false => .ok none
  | .ok true =>
    match asDebye d with
    | .error e => .error e
    | .ok d =>
      match linspace (-13 / 10 : ℝ) (47 / 10) n with
      | .error e => .error e
      | .ok ys =>
        match d.cumulativeMfp 0 [temper] true 1000 with
        | .error e => .error e
        | .ok _ => .ok (some (ys.map fun y => (10 : ℝ) ^ y, colsOf (fun x => match d.cumulativeMfp x [temper] true 1000 with
          | .ok f => f
          | .error _ => []) (ys.map fun y => (10 : ℝ) ^ y)))

/-- what `parse_KappaFit` returns and `do_kappa` uses -/
structure Results where
  predX : List ℝ
  pred : Cols
  rate : Detail := none
  spec : Detail := none
  cumu : Detail := none
  subs : Option (List (List Char)) := none

/-- the Debye model itself, if the object is one -/
def debyeObj (E : Env) (o : Obj) (s : KappaVar.St) : Except PyErr (Option Kappa.Debye) :=
  if o.ty = "DEBYE" then (debyeOf (envOf s) (kappaOf E.quad (envOf s) (E.limit - 1)) o).map some else .ok none

/-- the part for Debye models, kappa.py:1643-1703 -/
def detailStep (E : Env) (e : Entry) (o : Obj) (s : KappaVar.St) (n : Int) (r : Results) : Except PyErr Results := do
  if debyeResults o then
    let d ← debyeObj E o s
    let pred ← splitStep E e d r.predX r.pred
    let temper ← getConv E.float e "temperature" 300
    let funit ← unitStep E e d temper
    let rate ← rateStep e d n temper funit
    let spec ← specStep e d n temper funit
    let cumu ← cumuStep e d n temper
    return { r with pred := pred, rate := rate, spec := spec, cumu := cumu }
  else return r

/-- the section `variables`, kappa.py:1489-1514 -/
def varsStep (E : Env) (cfg : Config) : Except PyErr (List (List Char × VarVal) × KappaVar.St) :=
  match get? cfg "variables".toList with
  | none => .ok ([], KappaVar.St.init)
  | some opts =>
    match parseVars E.float (opts.map fun p => (p.1.toList, p.2)) KappaVar.St.init with
    | (.error e, _) => .error e
    | (.ok l, s) => .ok (l, s)

/-- the model, kappa.py:1516-1561 -/
def modelStep (E : Env) (cfg : Config) (e : Entry) (l : List (List Char × VarVal)) : Except PyErr Obj :=
  match get? e "model" with
  | none => .error .valueError
  | some name => parseSub E.float cfg l E.limit name

/-- `parse_KappaFit` after the section `entry` has been read, kappa.py:1489-1703 -/
def parseRest (E : Env) (fs : Files) (lines : List (List Char)) (cfg : Config) (e : Entry) : Except PyErr Results := do
  let (l, s0) ← varsStep E cfg
  let o ← modelStep E cfg e l
  let (data, s) ← fitStep E fs e o (fitting l) s0
  let subs ← subsStep E e l s lines
  let n ← npoints E e
  let xs ← pointsStep E e n data
  let ys ← evalAt E o xs s
  detailStep E e o s n { predX := xs, pred := [("Kappa-".toList ++ o.tag, ys)], subs := subs }

/-- `parse_KappaFit`, kappa.py:1475-1703 -/
def parseKappa (E : Env) (specify : Entry) (fs : Files) (file : List Char) : Except RunErr Results :=
  match fs file with
  | none => .error (.py .ioError)
  | some text =>
    match CfgText.readCfg (rawLines text) with
    | .error e => .error (.cfg e)
    | .ok p =>
      match get? (updateCfg specify p.items) "entry".toList with
      | none => .error (.py .keyError)
      | some e => liftErr (parseRest E fs (rawLines text) (updateCfg specify p.items) e)

/-! ## `do_kappa` -/

/-- the options of `tef-kappa`; an absent output file is the empty text -/
structure Options where
  inputfile : List Char
  outputfile : List Char
  suffix : List Char
  bare : Bool
  headers : Bool
  npoints : Option (List Char)
  margin : Option (List Char)
  predict : Option (List Char)
  temperature : Option (List Char)
  frequnit : Option (List Char)
  substituted : Bool
  less : Bool

/-- an option with a text, if it is given -/
def given (k : String) (o : Option (List Char)) : Entry := (o.map fun t => (k, t)).toList

/-- `specify`, interface.py:1199-1205 -/
def Options.specify (o : Options) : Entry :=
  given "npoints" o.npoints ++ given "margin" o.margin ++ given "predict" o.predict ++ given "temperature" o.temperature ++
  given "frequnit" o.frequnit ++ (if o.substituted then [("substituted", "true".toList)] else []) ++
  (if o.less then [("splitkappa", "false".toList), ("scattering", "false".toList), ("spectral", "false".toList), ("cumulate", "false".toList)] else [])

/-- the main output, interface.py:1209 -/
def Options.main (o : Options) : List Char := suffixed o.outputfile o.inputfile o.suffix ".txt".toList
/-- interface.py:1223 -/
def Options.rate (o : Options) : List Char := suffixed [] o.main "rate".toList []
/-- interface.py:1231 -/
def Options.spec (o : Options) : List Char := suffixed [] o.main "spec".toList []
/-- interface.py:1239 -/
def Options.cumu (o : Options) : List Char := suffixed [] o.main "cumu".toList []
/-- interface.py:1243 -/
def Options.subs (o : Options) : List Char := suffixed [] o.main "subs".toList ".cfg".toList

/-- a table of abscissas and columns, interface.py:1212-1216 -/
def tableText (E : Env) (o : Options) (header first : String) (xs : List ℝ) (cols : Cols) : Except PyErr (List Char) :=
  match vstackT (xs :: cols.map Prod.snd) with
  | .error e => .error e
  | .ok rows => toFile E.render o.bare o.headers (.rows rows) header.toList E.info (.names (first.toList :: cols.map Prod.fst))

/-- a detail file, if there are results for it -/
def detailWrite (E : Env) (o : Options) (name : List Char) (header first : String) : Detail → List (List Char × Except PyErr (List Char))
  | none => []
  | some (xs, cols) => [(name, tableText E o header first xs cols)]

/-- the files written, in order, interface.py:1212-1245 (an empty list of lines is not written) -/
def writes (E : Env) (o : Options) (r : Results) : List (List Char × Except PyErr (List Char)) :=
  (o.main, tableText E o "Predict kappa" "Xcolumn" r.predX r.pred) ::
    (detailWrite E o o.rate "Scattering rate" "freq" r.rate ++ detailWrite E o o.spec "Spectral kappa" "freq" r.spec ++
     detailWrite E o o.cumu "Cumulative kappa" "mfp" r.cumu ++
     match r.subs with
     | none => []
     | some lines => if lines = [] then [] else [(o.subs, .ok lines.flatten)])

/-- writing one file after another; an error ends it -/
def runWrites : List (List Char × Except PyErr (List Char)) → Files → Files × Except RunErr Unit
  | [], fs => (fs, .ok ())
  | (_, .error e) :: _, fs => (fs, .error (.py e))
  | (name, .ok t) :: rest, fs => runWrites rest (fs.write name t)

/-- `do_kappa`, interface.py:1151-1246: the files after the run and whether it failed -/
def doKappa (E : Env) (o : Options) (fs : Files) : Files × Except RunErr Unit :=
  match parseKappa E o.specify fs o.inputfile with
  | .error e => (fs, .error e)
  | .ok r => runWrites (writes E o r) fs

end

end TEflow.KappaRun
