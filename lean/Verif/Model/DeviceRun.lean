import Verif.Model.ToolRuns

/-! # Model of whole runs of `tef-ztdev` and `tef-engout`, /repo/src/teflow/interface.py:472-628

The computations are those of `Model/DeviceCli.lean`, on exact numbers; a NaN is `none` (infinities are not modelled).  What becomes of a
table with a NaN in a run that computes with all numbers at once is given (`nanZtdev`, `nanEngout`).  The file system is the one of
`Model/ToolRuns.lean`. -/

namespace TEflow.DeviceRun

open Loader Interface TableFile ToolRuns DeviceCli

/-- what is used of the interpreter and of the libraries -/
structure Env where
  /-- `float(text)` -/
  float : List Char → Except PyErr (Option ℝ)
  /-- `'%.4f' % x` -/
  render : Option ℝ → List Char
  /-- `minimize_scalar` -/
  search : Ztdev.Search
  /-- `do_ztdev` on a table with a NaN -/
  nanZtdev : List (List (Option ℝ)) → Except PyErr (List (List (Option ℝ)))
  /-- `do_engout` on a table with a NaN, for `-p`, `-R` and the length -/
  nanEngout : Bool → Bool → ℝ → List (List (Option ℝ)) → Except PyErr (List (List (Option ℝ)))

/-- the numbers of a table without a NaN -/
def finite (rows : List (List (Option ℝ))) : Option (List (List ℝ)) := rows.mapM fun r => r.mapM id

/-- the options of `tef-ztdev`; an absent output file is the empty text -/
structure ZtOptions where
  inputfile : List Char
  outputfile : List Char
  suffix : List Char
  bare : Bool
  yita : Bool

/-- the options of `tef-engout`; an absent output file is the empty text -/
structure EngOptions where
  inputfile : List Char
  outputfile : List Char
  suffix : List Char
  bare : Bool
  pair : Bool
  resistivity : Bool
  length : ℝ

/-- the name of the output file, interface.py:527 -/
def ZtOptions.output (o : ZtOptions) : List Char := suffixed o.outputfile o.inputfile o.suffix []

/-- the name of the output file, interface.py:625 -/
def EngOptions.output (o : EngOptions) : List Char := suffixed o.outputfile o.inputfile o.suffix []

/-- the columns `tef-ztdev` names, interface.py:528 -/
def ztLabels : List Char := "Tc     Th       Yita   ZTdev".toList

/-- the columns `tef-engout` names, interface.py:617 -/
def engLabels : List Char := "Tc     Th       PFeng  ZTeng  Pout   Yita".toList

/-- the rows computed by `tef-ztdev`, interface.py:508-526 -/
noncomputable def ztRows (env : Env) (yita : Bool) (rows : List (List (Option ℝ))) : Except PyErr (List (List (Option ℝ))) :=
  if yita then ztdevYita rows
  else match finite rows with
    | some r => ztdev env.search r
    | none => env.nanZtdev rows

/-- the rows computed by `tef-engout`, interface.py:583-618 -/
noncomputable def engRows (env : Env) (o : EngOptions) (rows : List (List (Option ℝ))) : Except PyErr (List (List (Option ℝ))) :=
  match finite rows with
  | some r =>
    match engout o.pair o.resistivity o.length r with
    | .error e => .error e
    | .ok out => .ok (out.map fun r => r.map some)
  | none => env.nanEngout o.pair o.resistivity o.length rows

/-- the text of the output: reading the input, computing, and `np.savetxt(outputfile, outdata, fmt='%.4f', header=comment)` with a header of
two lines, interface.py:528-532 and 621-627; nothing is written before -/
def tableText (env : Env) (compute : List (List (Option ℝ)) → Except PyErr (List (List (Option ℝ)))) (bare : Bool) (title labels : List Char)
    (input : Option (List Char)) : Except PyErr (List Char) :=
  match input with
  | none => .error .ioError
  | some text =>
    match loadtxt env.float text with
    | .error e => .error e
    | .ok rows =>
      match compute rows with
      | .error e => .error e
      | .ok out => .ok (savetxt env.render out (if bare then [] else title ++ '\n' :: labels) ['#', ' '])

/-- `do_ztdev`, interface.py:472-533: the files after the run and whether it failed; `title` is the first line of the header -/
noncomputable def doZtdev (env : Env) (title : List Char) (o : ZtOptions) (fs : Files) : Files × Except PyErr Unit :=
  match tableText env (ztRows env o.yita) o.bare title ztLabels (fs o.inputfile) with
  | .error e => (fs, .error e)
  | .ok text => (fs.write o.output text, .ok ())

/-- `do_engout`, interface.py:535-628: the files after the run and whether it failed; `title` is the first line of the header -/
noncomputable def doEngout (env : Env) (title : List Char) (o : EngOptions) (fs : Files) : Files × Except PyErr Unit :=
  match tableText env (engRows env o) o.bare title engLabels (fs o.inputfile) with
  | .error e => (fs, .error e)
  | .ok text => (fs.write o.output text, .ok ())

end TEflow.DeviceRun
