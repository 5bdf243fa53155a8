import Verif.Model.BandCfg
import Verif.Model.BandModel
import Verif.Model.KappaRun

/-! # Model of whole runs of `tef-band`, /repo/src/teflow/interface.py:1019-1148

The file system is a map from names to texts (line ends are `\n`).  Numbers are reals.  Not modelled: logging, interpolation (`$`) in
configuration files; a band called `entry` (always an error) sees the section before the update.  What the code calls and is not
modelled is an argument: `Env`. -/

namespace TEflow.BandRun

noncomputable section

open PyDict Loader Interface TableFile ToolRuns KappaRun

/-- what the code calls: Python's `float`; the finite number a text stands for, if it does (`parse_datafile` with `np.isfinite`);
scipy's `root_scalar`, the solvers inside `valuate` for the parabolic and the Kane band; the order of sets; the formats `%.6E` and
`%.4f`; `f'{TIME} {INFO}'`; and what comes out of `-m` for columns of different lengths or without numbers (numpy broadcasts or fails) -/
structure Env where
  float : List Char → Except PyErr ℝ
  number : List Char → Option ℝ
  root : (ℝ → Except PyErr ℝ) → ℝ → Except PyErr ℝ
  solve : ℝ → ℝ → ℝ
  solveK : ℝ → ℝ → ℝ → ℝ
  setOrder : List String → List String
  sci : ℝ → List Char
  fix : ℝ → List Char
  info : List Char
  uneven : BandModel.Method → Option ℝ → Option (List Char) → Bool → Dataset Unit (List ℝ) → Except PyErr (PyDict String (List ℝ))

/-- the options of `tef-band`; an absent output file is the empty text; `stored` are the options `--T --EF --deltas --btypes --initial -p`
with their values as they come on the command line -/
structure Options where
  inputfile : List Char
  outputfile : List Char
  suffix : List Char
  bare : Bool
  headers : Bool
  stored : List (String × List Char)
  modelling : Option BandModel.Method
  gap : Option ℝ
  group : List Char

/-- `options.stored_params`, interface.py:115-120 -/
def Options.specify (o : Options) : PyDict String (List Char) := ofPairs o.stored

/-- `options.properties`, interface.py:120, 1137 -/
def Options.properties (o : Options) : Option (List Char) := get? o.specify "properties"

/-- the output file: interface.py:1094 without `-m`, interface.py:188 with it -/
def Options.output (o : Options) : List Char :=
  suffixed o.outputfile o.inputfile o.suffix (if o.modelling = none then ".txt".toList else [])

/-! ## Without `-m` -/

/-- the text written, interface.py:1078-1096 -/
def simText (E : Env) (o : Options) (fs : Files) : Except RunErr (List Char) :=
  match fs o.inputfile with
  | none => .error (.py .ioError)
  | some text =>
    match CfgText.readCfg (rawLines text) with
    | .error e => .error (.cfg e)
    | .ok p => liftErr do
      let table ← BandCfg.simulate E.float E.root p.items o.specify
      toFile E.sci o.bare o.headers (.columns table) "Simulating carrier transport".toList E.info (.names [])

/-! ## With `-m` -/

/-- `TEdataset.from_file`, loader.py:767-771 and 732-736: the columns without what is no finite number; `none` is NaN or infinite -/
def readData (E : Env) (text group : List Char) : Dataset Unit (List ℝ) :=
  initTE ((columnsTE Option.isSome (parseDatafile none (fun t => (E.number t).map some) none (linesOf text))).map fun c => c.filterMap id)
    ((Re.findAll propRe group).map String.ofList)

/-- the properties `gget('STCNK')` looks at (C and N may be derived from R and U), loader.py:579-633 -/
def usedKeys : List String := ["S", "T", "C", "R", "N", "U", "K"]

/-- the columns in use -/
def used (ds : Dataset Unit (List ℝ)) : Dataset Unit (List ℝ) := ds.filter fun p => p.1 ∈ usedKeys

/-- the number of rows; 1 if there is no column in use -/
def height (ds : Dataset Unit (List ℝ)) : Nat :=
  match used ds with
  | [] => 1
  | p :: _ => p.2.data.length

/-- the same dataset for arrays of length `n` -/
def rowed (n : Nat) (ds : Dataset Unit (List ℝ)) : Dataset Unit (Fin n → ℝ) :=
  ds.map fun p => (p.1, ⟨fun i => (p.2.data[(i : Nat)]?).getD 0, p.2.temp, p.2.tidx⟩)

/-- all columns in use have the same length, which is not 0 -/
def isEven (ds : Dataset Unit (List ℝ)) : Bool := height ds != 0 && (used ds).all fun p => p.2.data.length == height ds

/-- the rows of the table, interface.py:1104-1146 -/
def modelRows (E : Env) (m : BandModel.Method) (o : Options) (n : Nat) (file : Except PyErr (Dataset Unit (Fin n → ℝ))) :
    Except PyErr (List (PyDict String ℝ)) :=
  (List.finRange n).mapM (BandModel.run E.solve E.solveK E.setOrder m o.gap file o.properties o.bare)

/-- rows as columns -/
def columnsOfRows (rows : List (PyDict String ℝ)) : PyDict String (List ℝ) :=
  match rows with
  | [] => []
  | r :: _ => r.map fun p => (p.1, rows.map fun s => (get? s p.1).getD 0)

/-- the table, interface.py:1104-1146 -/
def modelTable (E : Env) (m : BandModel.Method) (o : Options) (fs : Files) : Except PyErr (PyDict String (List ℝ)) :=
  match fs o.inputfile with
  | none => (modelRows E m o 1 (.error .ioError)).map columnsOfRows
  | some text =>
    if isEven (readData E text o.group) then
      (modelRows E m o (height (readData E text o.group)) (.ok (rowed _ (readData E text o.group)))).map columnsOfRows
    else
      match BandModel.select m o.gap with
      | .error e => .error e
      | .ok _ => E.uneven m o.gap o.properties o.bare (readData E text o.group)

/-- the text written, interface.py:1147 -/
def modelText (E : Env) (m : BandModel.Method) (o : Options) (fs : Files) : Except PyErr (List Char) := do
  let table ← modelTable E m o fs
  toFile E.fix o.bare o.headers (.columns table) "Modeling carrier transport".toList E.info (.names [])

/-! ## The run -/

/-- what is written -/
def text (E : Env) (o : Options) (fs : Files) : Except RunErr (List Char) :=
  match o.modelling with
  | none => simText E o fs
  | some m => liftErr (modelText E m o fs)

/-- `do_band`, interface.py:1019-1148: the files after the run and whether it failed -/
def doBand (E : Env) (o : Options) (fs : Files) : Files × Except RunErr Unit :=
  match text E o fs with
  | .error e => (fs, .error e)
  | .ok t => (fs.write o.output t, .ok ())

end

end TEflow.BandRun
