import Verif.Model.ToolRuns

/-! # Model of whole runs of `tef-refine` and `tef-mixing --extend`, /repo/src/teflow/interface.py:317-436, 966-1016

Both work on texts only.  The file system is the one of `Model/ToolRuns.lean`; line ends other than `'\n'` are not modelled. -/

namespace TEflow.TextRuns

open Loader Interface TableFile ToolRuns

/-- `f.write(line + '\n')` for every line -/
def textOf (lines : List (List Char)) : List Char := (lines.map fun l => l ++ ['\n']).flatten

/-! ## `tef-refine` -/

/-- the options of `tef-refine`; an absent option is the empty text -/
structure RefineOptions where
  inputfile : List Char
  outputfile : List Char
  suffix : List Char
  bare : Bool
  column : List Char

/-- the name of the output file, interface.py:1005 -/
def RefineOptions.output (o : RefineOptions) : List Char := suffixed o.outputfile o.inputfile o.suffix []

/-- the columns asked for, interface.py:996-1002; `int` is Python's conversion -/
def usecols (int : List Char → Except PyErr Int) (column : List Char) : Except PyErr (Option (List Int)) :=
  if column = [] then .ok none else ((words column).mapM int).map some

/-- `do_refine`, interface.py:966-1016: the files after the run and whether it failed.  The input is read before the output is
opened; the columns are picked row by row while the output is written (`Interface.refine`). -/
def doRefine (int : List Char → Except PyErr Int) (info : List Char) (o : RefineOptions) (fs : Files) : Files × Except PyErr Unit :=
  match fs o.inputfile with
  | none => (fs, .error .ioError)
  | some text =>
    match usecols int o.column with
    | .error e => (fs, .error e)
    | .ok cols =>
      let r := refine ("# Refined data - ".toList ++ info) o.bare cols (linesOf text)
      (fs.write o.output (textOf r.1), r.2)

/-! ## `tef-mixing --extend`, `--raw-extend` -/

/-- the options of `tef-mixing` used with `--extend`; an absent output file is the empty text, an absent `--padding` is `none` -/
structure ExtendOptions where
  inputfile : List (List Char)
  outputfile : List Char
  bare : Bool
  raw : Bool
  padding : Option (List Char)
  labels : List (List Char)

/-- the header lines, interface.py:424-427 -/
def ExtendOptions.header (o : ExtendOptions) (info : List Char) : List (List Char) :=
  if o.bare then []
  else ("# Extend datafiles - ".toList ++ info) :: (if o.labels = [] then [] else ["# ".toList ++ join [' '] o.labels])

/-- reading the lines of one file, interface.py:370-376 -/
def readLines (fs : Files) (f : List Char) : Except PyErr (List (List Char)) :=
  match fs f with
  | none => .error .ioError
  | some t => .ok (linesOf t)

/-- the text shown on the screen, interface.py:431-436 -/
def shown (labels rows : List (List Char)) : List Char :=
  (if labels = [] then "Result:".toList else "Result[".toList ++ join [' '] labels ++ "]:".toList) ++
    (rows.map fun r => "\n  ".toList ++ r).flatten

/-- `do_mixing` with `--extend` or `--raw-extend`, interface.py:367-437: the files after the run, and what is shown on the screen
(empty if there is an output file) or the error.  All inputs are read before the output is opened. -/
def doExtend (info : List Char) (o : ExtendOptions) (fs : Files) : Files × Except PyErr (List Char) :=
  match o.inputfile.mapM (readLines fs) with
  | .error e => (fs, .error e)
  | .ok files =>
    let rows := extend o.raw o.padding files
    if o.outputfile ≠ [] then (fs.write o.outputfile (textOf (o.header info ++ rows)), .ok [])
    else (fs, .ok (shown o.labels rows))

end TEflow.TextRuns
