import Verif.Model.ToolRuns

/-! # Model of whole runs of `tef-cutoff`, /repo/src/teflow/interface.py:873-963

The numbers are of any type `V`; reading, writing (`'%.4f'`), multiplication and the two cut-off functions are given.  The file
system is the one of `Model/ToolRuns.lean`. -/

namespace TEflow.CutRun

open Loader Interface TableFile ToolRuns

variable {V : Type}

/-- the arithmetic used -/
structure Env (V : Type) where
  /-- `float(text)` -/
  float : List Char → Except PyErr V
  /-- `'%.4f' % x` -/
  render : V → List Char
  /-- `int(text)` -/
  int : List Char → Except PyErr Int
  mul : V → V → V
  /-- `fermidirac(5*(x-tc)/(width/2))` for `tc`, `width`, `x` -/
  fd : V → V → V → V
  /-- `smoothstep((x-tc)/(width/2))` for `tc`, `width`, `x` -/
  ss : V → V → V → V

/-- the options of `tef-cutoff`; an absent output file is the empty text -/
structure CutOptions (V : Type) where
  inputfile : List Char
  outputfile : List Char
  suffix : List Char
  bare : Bool
  tcut : V
  width : V
  method : Option (List Char)
  column : Option (List Char)

/-- the name of the output file, interface.py:917 -/
def CutOptions.output (o : CutOptions V) : List Char := suffixed o.outputfile o.inputfile o.suffix []

/-- the cut-off function, interface.py:921-943; `options.method.lower()` -/
def cutFunction (env : Env V) (o : CutOptions V) : Except PyErr (V → V) :=
  let method := (o.method.getD cutDefault).map lowerC
  if method = "fd".toList ∨ method = "fermi-dirac".toList ∨ method = "fermidirac".toList then .ok (env.fd o.tcut o.width)
  else if method = "ss".toList ∨ method = "smoothstep".toList then .ok (env.ss o.tcut o.width)
  else .error .valueError

/-- the column numbers, interface.py:948-953 and the indexing at 956/959 (`n` columns) -/
def cutIndex (env : Env V) (o : CutOptions V) (n : Nat) : Except PyErr (List Nat) :=
  match o.column with
  | none => .ok ((List.range n).drop 1)
  | some t =>
    match (words t).mapM env.int with
    | .error e => .error e
    | .ok cols => normCols n cols

/-- one row, interface.py:955-960: indexing with a list reads every column once, so repeated indices do not multiply twice -/
def cutRow (mul : V → V → V) (f : V → V) (idx : List Nat) (bare : Bool) (r : List V) : List V :=
  match r with
  | [] => []
  | x :: _ => if bare then idx.filterMap fun j => (r[j]?).map fun v => mul v (f x)
    else r.mapIdx fun j v => if j ∈ idx then mul v (f x) else v

/-- the text written: everything before the output file is opened; `title` is the comment of interface.py:960.  An array without
rows has one column. -/
def cutText (env : Env V) (title : List Char) (o : CutOptions V) (fs : Files) : Except PyErr (List Char) :=
  match fs o.inputfile with
  | none => .error .ioError
  | some text =>
    match loadtxt env.float text with
    | .error e => .error e
    | .ok rows =>
      match cutFunction env o with
      | .error e => .error e
      | .ok f =>
        match cutIndex env o ((rows.head?.map List.length).getD 1) with
        | .error e => .error e
        | .ok idx => .ok (savetxt env.render (rows.map (cutRow env.mul f idx o.bare)) (if o.bare then [] else title) ['#', ' '])

/-- `do_cutoff`, interface.py:873-963: the files after the run and whether it failed -/
def doCutoff (env : Env V) (title : List Char) (o : CutOptions V) (fs : Files) : Files × Except PyErr Unit :=
  match cutText env title o fs with
  | .error e => (fs, .error e)
  | .ok text => (fs.write o.output text, .ok ())

/-! ## Decimal numbers -/

/-- the product of two numbers, with the sign of a floating point product -/
def numMul (x y : Num) : Num := ⟨xor x.neg y.neg, x.mag * y.mag, mul_nonneg x.nonneg y.nonneg⟩

/-- `smoothstep((x-tc)/(width/2))`, mathext.py:356-400, for rational numbers -/
def numStep (tc width x : Num) : Num :=
  let t := max (-1) (min 1 ((x.val - tc.val) / (width.val / 2)))
  numOf ((t - 1) * (t - 1) * (t + 2) / 4)

end TEflow.CutRun
