import Mathlib.Tactic
import Verif.Model.Dataset
import Verif.Model.Utils
import Verif.Model.Interface
import Verif.Model.BandFuncs

/-! # Model of `tef-band -m`, /repo/src/teflow/interface.py:1104-1148

Experimental data are interpreted with a single-band model.  Arrays are functions of the row `i : ι`; the properties returned by
`valuate` are computed row by row, so the model follows one row (which columns there are does not depend on the row).  The file is
read by `TEdataset.from_file` (`Model/Dataset.lean`); here it is given as the resulting dataset or the error of reading it.
The root finder inside `valuate` is `solve` (for the parabolic band) or `solveK Eg` (for the Kane band), see `Model/BandFuncs.lean`. -/

namespace TEflow.BandModel

open PyDict Utils Loader Bandlib

noncomputable section

variable {ι : Type}

/-- the choices of `-m`, interface.py:1057; argparse rejects any other word -/
inductive Method where
  | spb
  | rspb
  | skb
  deriving DecidableEq

/-- the letters of `'STCNK'`, interface.py:1130 -/
def letters : List String := ["S", "T", "C", "N", "K"]

/-- `d.move_to_end(k, last=False)`; `KeyError` if absent -/
def moveToFront {ν : Type} (d : PyDict String ν) (k : String) : Except PyErr (PyDict String ν) :=
  match get? d k with
  | none => .error .keyError
  | some v => .ok ((k, v) :: erase d k)

/-- what is kept of one result of `gget(…, default=None)`, interface.py:1131 -/
def presentOf {α : Type} : String × GetOut Unit Unit α → Option (String × α)
  | (k, .value _ v) => some (k, v)
  | (_, .default _) => none

/-- `inp`, interface.py:1130-1131: the default `None` is `()` -/
def inputs (ds : Dataset Unit (ι → ℝ)) : Except PyErr (PyDict String (ι → ℝ)) := do
  let vs ← gget ds (some ()) letters
  return (letters.zip vs).filterMap presentOf

/-- the keyword arguments `{f'data{k}': np.absolute(v) …}` at row `i`, interface.py:1134 -/
def kwargs (inp : PyDict String (ι → ℝ)) (i : ι) : PyDict String (Option ℝ) :=
  inp.map fun p => ("data" ++ p.1, some |p.2 i|)

/-- the argument `k` of a call, its default being `None` -/
def arg (a : PyDict String (Option ℝ)) (k : String) : Option ℝ := (get? a k).join

/-- the argument `k` of a call with a number as default -/
def argD (a : PyDict String (Option ℝ)) (k : String) (d : ℝ) : ℝ := (arg a k).getD d

/-- the wrapper used, bandlib.py:1543-1554 -/
def wrapper : Method → Exec ℝ
  | .spb => Exec.init ["dataS"] ["dataT", "dataC", "dataN", "dataK", "hall", "Kmass"]
  | .skb => Exec.init ["dataS", "dataT"] ["dataC", "dataN", "dataK", "Eg", "hall", "Kmass"]
  | .rspb => Exec.init ["dataS"] ["dataC", "dataT", "dataN", "dataK", "delta"]

/-- the wrapped method at one row (signatures bandlib.py:909-911, 1139-1141, 1378-1380); `hall` is never given here -/
def call (solve : ℝ → ℝ → ℝ) (solveK : ℝ → ℝ → ℝ → ℝ) (m : Method) (a : PyDict String (Option ℝ)) : Except PyErr (List (String × ℝ)) :=
  match m with
  | .spb => .ok (Spb.valuate solve (argD a "dataS" 0) (arg a "dataT") (arg a "dataC") (arg a "dataN") (arg a "dataK") false (argD a "Kmass" 1))
  | .skb => Skb.valuate (solveK (argD a "Eg" 1)) (argD a "dataS" 0) (argD a "dataT" 0) (arg a "dataC") (arg a "dataN") (arg a "dataK")
      (argD a "Eg" 1) false (argD a "Kmass" 1)
  | .rspb => .ok (Rspb.valuate (argD a "dataS" 0) (arg a "dataC") (arg a "dataT") (arg a "dataN") (arg a "dataK") (argD a "delta" (75 / 1000)))

/-- the selection of the model, interface.py:1104-1122 -/
def select (m : Method) (gap : Option ℝ) : Except PyErr (Exec ℝ) :=
  match m with
  | .skb => match gap with
    | none => .error .runtimeError
    | some g => if g ≤ 0 then .error .valueError else .ok ((wrapper .skb).update [("Eg", some g)])
  | m => .ok (wrapper m)

/-- The option `-p`, interface.py:1137-1139 -/
def retained (setOrder : List String → List String) (props : Option (List Char)) (out : PyDict String ℝ) : Except PyErr (PyDict String ℝ) :=
  match props with
  | none => .ok out
  | some t =>
    match retain setOrder out (.iterable ((Interface.words (strip t)).map String.ofList) true) true with
    | (_, .error e) => .error e
    | (d, .ok _) => .ok d

/-- the loop moving the inputs to the front, interface.py:1144-1146 -/
def moveInputs {ν : Type} (inp : PyDict String ν) : List String → PyDict String ν → Except PyErr (PyDict String ν)
  | [], d => .ok d
  | k :: ks, d =>
    if has inp k then
      match moveToFront d k with
      | .error e => .error e
      | .ok d => moveInputs inp ks d
    else moveInputs inp ks d

/-- adding the inputs, interface.py:1142-1146 -/
def withInputs (bare : Bool) (inp out : PyDict String ℝ) : Except PyErr (PyDict String ℝ) :=
  if bare then .ok out else moveInputs inp letters.reverse (update out inp)

/-- `tef-band -m` up to the table written, interface.py:1104-1146, at row `i` -/
def run (solve : ℝ → ℝ → ℝ) (solveK : ℝ → ℝ → ℝ → ℝ) (setOrder : List String → List String) (m : Method) (gap : Option ℝ)
    (file : Except PyErr (Dataset Unit (ι → ℝ))) (props : Option (List Char)) (bare : Bool) (i : ι) : Except PyErr (PyDict String ℝ) := do
  let w ← select m gap
  let ds ← file
  let inp ← inputs ds
  let out ← (w.execute (call solve solveK m) (kwargs inp i)).2
  let out ← retained setOrder props out
  withInputs bare (inp.map fun p => (p.1, p.2 i)) out

end

end TEflow.BandModel
