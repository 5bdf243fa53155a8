import Verif.Model.Engout
import Verif.Model.TableFile

/-! # Model of `do_ztdev` and `do_engout`, /repo/src/teflow/interface.py:472-627, from the table read to the table written

The table is given by its rows, which `np.loadtxt` makes equally long.  Numbers are exact; a NaN is `none`.  Parsing of the options, reading
and writing of the files are modelled elsewhere (`TableFile`, `Interface`) or not at all; the messages logged are left out. -/

namespace TEflow.DeviceCli

open TEflow.Ztdev (TEPoint)
open TEflow.TableFile (vstackT)

/-- `len(datas)` for `datas = np.loadtxt(f, unpack=True, ndmin=2)`: the number of columns; a file without data gives an array of the shape
(1, 0) -/
def width {V : Type} : List (List V) → Nat
  | [] => 1
  | r :: _ => r.length

/-- the entry in column `j` of a row; the columns used exist by the checks made before -/
noncomputable def entry (r : List ℝ) (j : Nat) : ℝ := r[j]?.getD 0

/-- the columns `0, c, c+1, c+2` of a row as `T, C, S, K` -/
noncomputable def point (c : Nat) (r : List ℝ) : TEPoint := ⟨entry r 0, entry r c, entry r (c + 1), entry r (c + 2)⟩

/-! ## `tef-engout` -/

/-- `datas[j] = 1E4/datas[j]` -/
noncomputable def invert (j : Nat) (r : List ℝ) : List ℝ := r.set j (10000 / entry r j)

/-- the option `-R`, interface.py:586-594 -/
noncomputable def convert (resistivity pair : Bool) (rows : List (List ℝ)) : List (List ℝ) :=
  if resistivity then
    let rows := rows.map (invert 1)
    if pair then rows.map (invert 4) else rows
  else rows

/-- `ndarray.mean()` -/
noncomputable def mean (l : List ℝ) : ℝ := l.sum / l.length

/-- the data of the p-type and of the n-type leg, interface.py:605-608 -/
noncomputable def legs (rows : List (List ℝ)) : List TEPoint × List TEPoint :=
  let first := rows.map (point 1)
  let second := rows.map (point 4)
  if mean (rows.map fun r => entry r 2) < mean (rows.map fun r => entry r 5) then (second, first) else (first, second)

/-- the columns written for a pair, interface.py:614-615 -/
noncomputable def pairTable (v : Engout.PairValuation) : Except PyErr (List (List ℝ)) := vstackT [v.Tc, v.Th, v.PFeng, v.ZTeng, v.Pout, v.Yita]

/-- the columns written for a single leg, interface.py:614-615 -/
noncomputable def legTable (v : Engout.LegValuation) : Except PyErr (List (List ℝ)) := vstackT [v.Tc, v.Th, v.PFeng, v.ZTeng, v.Pout, v.Yita]

/-- `do_engout`, interface.py:573-615.  `GenLeg` unpacks the whole table into four columns. -/
noncomputable def engout (pair resistivity : Bool) (length : ℝ) (rows : List (List ℝ)) : Except PyErr (List (List ℝ)) :=
  if pair ∧ width rows < 7 then .error .valueError
  else if width rows < 4 then .error .valueError
  else
    let datas := convert resistivity pair rows
    if length ≤ 0 then .error .valueError
    else if pair then
      match Engout.Pair.valuate (legs datas).1 (legs datas).2 length with
      | .error e => .error e
      | .ok v => pairTable v
    else if width rows ≠ 4 then .error .valueError
    else match Engout.Leg.valuate (datas.map (point 1)) length with
      | .error e => .error e
      | .ok v => legTable v

/-! ## `tef-ztdev` -/

/-- `do_ztdev` without `-y`, interface.py:517-524: `valuate(data_TCSK[:4])` first takes `T[0]`, then unpacks four columns -/
noncomputable def ztdev (search : Ztdev.Search) (rows : List (List ℝ)) : Except PyErr (List (List (Option ℝ))) :=
  if rows = [] then .error .indexError
  else if width rows < 4 then .error .valueError
  else match Ztdev.valuate search (rows.map (point 1)) true with
    | .error e => .error e
    | .ok v => vstackT [v.Tc.map some, v.Th.map some, v.Yita, v.ZTdev]

/-- one row of `do_ztdev -y`, interface.py:508-515, 524: the efficiency may be NaN, and so may the temperatures -/
noncomputable def yitaRow (r : List (Option ℝ)) : List (Option ℝ) :=
  let Tc := r[0]?.join
  let Th := r[1]?.join
  let yita := r[2]?.join
  [Tc, Th, yita, yita.bind fun y => Tc.bind fun c => Th.map fun h => Ztdev.calZTdev y c h]

/-- `do_ztdev -y`, interface.py:508-524: at least three columns are unpacked -/
noncomputable def ztdevYita (rows : List (List (Option ℝ))) : Except PyErr (List (List (Option ℝ))) :=
  if width rows < 3 then .error .valueError else .ok (rows.map yitaRow)

end TEflow.DeviceCli
