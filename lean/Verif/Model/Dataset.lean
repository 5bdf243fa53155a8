import Mathlib.Algebra.Field.Basic
import Verif.Model.Basic
import Verif.Model.Re
import Verif.Model.Compound

/-! # Model of `TEdatasetBase`, `TEdataset`, `TEdataset2`, /repo/src/teflow/loader.py:514-835

The three dictionaries `_data`, `_temp`, `_tidx` always have the same keys (they are only written together), so the
model keeps one dictionary of triples.  Arrays are functions from an index type: all arithmetic is element by element
(arrays of different shapes, which numpy would broadcast or reject, are not modelled).  `CONDALIAS`, `IGNORED` and
`TEMP_SYMBOL` have their default values. -/

namespace TEflow.Loader

open PyDict

/-- what is stored for one property: data, temperature object, index of the temperature column -/
structure Entry (τ α : Type) where
  data : α
  temp : τ
  tidx : Int

/-- a dataset object -/
abbrev Dataset (τ α : Type) := PyDict String (Entry τ α)

section Derived
variable {ι τ K : Type} [Field K]

/-- `Q_CHARGE`, loader.py:515 -/
def qCharge : K := 1602176634 / 1000000000

/-- `_getC`, loader.py:579-591; `none` is "(default, default)" -/
def getC (ds : Dataset τ (ι → K)) : Option (τ × (ι → K)) :=
  match get? ds "C" with
  | some c => some (c.temp, c.data)
  | none => match get? ds "R" with
    | some r => some (r.temp, fun i => 10000 / r.data i)
    | none => match get? ds "N", get? ds "U" with
      | some n, some u => if n.tidx = u.tidx then some (n.temp, fun i => qCharge * n.data i * u.data i) else none
      | _, _ => none

/-- `_getR`, loader.py:593-605 -/
def getR (ds : Dataset τ (ι → K)) : Option (τ × (ι → K)) :=
  match get? ds "R" with
  | some r => some (r.temp, r.data)
  | none => match get? ds "C" with
    | some c => some (c.temp, fun i => 10000 / c.data i)
    | none => match get? ds "N", get? ds "U" with
      | some n, some u => if n.tidx = u.tidx then some (n.temp, fun i => 10000 / (qCharge * n.data i * u.data i)) else none
      | _, _ => none

/-- the two conditional branches shared by `_getN` and `_getU` (loader.py:613-618, 627-632): `x` is the other carrier
property (`U` or `N`) -/
def getVia (ds : Dataset τ (ι → K)) (x : Option (Entry τ (ι → K))) : Option (τ × (ι → K)) :=
  match x with
  | none => none
  | some x =>
    let viaR := match get? ds "R" with
      | some r => if x.tidx = r.tidx then some (x.temp, fun i => 10000 / r.data i / (qCharge * x.data i)) else none
      | none => none
    match get? ds "C" with
    | some c => if x.tidx = c.tidx then some (x.temp, fun i => c.data i / (qCharge * x.data i)) else viaR
    | none => viaR

/-- `_getN`, loader.py:607-619 -/
def getN (ds : Dataset τ (ι → K)) : Option (τ × (ι → K)) :=
  match get? ds "N" with
  | some n => some (n.temp, n.data)
  | none => getVia ds (get? ds "U")

/-- `_getU`, loader.py:621-633 -/
def getU (ds : Dataset τ (ι → K)) : Option (τ × (ι → K)) :=
  match get? ds "U" with
  | some u => some (u.temp, u.data)
  | none => getVia ds (get? ds "N")

/-- the dispatch `self._calc_cond[key](…)`; `none`: key is not one of `CONDALIAS`, or nothing derivable -/
def derive (ds : Dataset τ (ι → K)) (key : String) : Option (τ × (ι → K)) :=
  if key = "C" then getC ds else if key = "R" then getR ds else if key = "N" then getN ds
  else if key = "U" then getU ds else none

/-- result of `get`: a pair (temperature, data), or the caller's default -/
inductive GetOut (δ τ α : Type) where
  | value (temp : τ) (data : α)
  | default (d : δ)

/-- `get(key, default)` of `TEdataset2` (loader.py:807-817) and of `TEdataset` (loader.py:746-756, which returns the second
component only); `default = none` is "not given" -/
def getProp {δ : Type} (ds : Dataset τ (ι → K)) (key : String) (default : Option δ) :
    Except PyErr (GetOut δ τ (ι → K)) :=
  match get? ds key with
  | some e => .ok (.value e.temp e.data)
  | none => match derive ds key with
    | some (t, v) => .ok (.value t v)
    | none => match default with
      | some d => .ok (.default d)
      | none => .error .valueError

/-- `self[key]`, loader.py:743-744 / 804-805 -/
def getItem {α : Type} (ds : Dataset τ α) (key : String) : Except PyErr (τ × α) :=
  match get? ds key with
  | some e => .ok (e.temp, e.data)
  | none => .error .keyError

/-- `gget(group, default)` for a group already parsed, loader.py:570-577 -/
def gget {δ : Type} (ds : Dataset τ (ι → K)) (default : Option δ) : List String → Except PyErr (List (GetOut δ τ (ι → K)))
  | [] => .ok []
  | g :: gs => match getProp ds g default with
    | .error e => .error e
    | .ok v => match gget ds default gs with
      | .error e => .error e
      | .ok vs => .ok (v :: vs)

end Derived

/-- `TEdataset._initialize_data`, loader.py:732-736 -/
def initTE {α : Type} (data : List α) (group : List String) : Dataset Unit α :=
  (group.zip data).foldl (fun ds p => if p.1 = "X" then ds else PyDict.set ds p.1 ⟨p.2, (), -1⟩) []

/-- the loop of `TEdataset2._initialize_data`, loader.py:782-795; `all` is the argument `data` -/
def initTE2Go {α : Type} (all : List α) : Nat → Nat → Dataset α α → List (String × α) → Except PyErr (Dataset α α)
  | _, _, ds, [] => .ok ds
  | i, idx, ds, (g, d) :: r =>
    if g = "T" then initTE2Go all (i + 1) i ds r
    else if idx < i then
      if g = "X" then initTE2Go all (i + 1) idx ds r
      else match all[idx]? with
        | none => .error .indexError
        | some t => initTE2Go all (i + 1) idx (PyDict.set ds g ⟨d, t, idx⟩) r
    else .error .valueError

/-- `TEdataset2._initialize_data`, loader.py:781-795 -/
def initTE2 {α : Type} (data : List α) (group : List String) : Except PyErr (Dataset α α) :=
  initTE2Go data 0 0 [] (group.zip data)

section Group

/-- `[a-z0-9_]` -/
def isIdTail (c : Char) : Bool := isLower c || isDigit c || c == '_'

/-- `PROP_PATTERN = [A-Z][a-z0-9_]?`, loader.py:519 -/
def propRe : Re := .seq (.cls isUpper) (.opt (.cls isIdTail))

/-- the `group` argument: a string, a sequence of identifiers, anything else -/
inductive GroupArg where
  | text (s : List Char)
  | seq (l : List (List Char))
  | other

/-- `parse_group`, loader.py:635-645 -/
def parseGroup : GroupArg → Except PyErr (List (List Char))
  | .text s => .ok (Re.findAll propRe s)
  | .seq l => .ok l
  | .other => .error .valueError

end Group

section DataFile
variable {V : Type}

/-- `str.rstrip()` -/
def rstrip (l : List Char) : List Char := (l.reverse.dropWhile pySpace).reverse

/-- `str.strip()` -/
def strip (l : List Char) : List Char := rstrip (l.dropWhile pySpace)

/-- the parts of `^ *(?P<rowline>[^#]+?) *(?=#|$)`, loader.py:654 -/
def rowParts : List Re :=
  [.seq .bos (.star (.cls (· == ' '))), .lazyPlus (.cls (· != '#')),
   .seq (.star (.cls (· == ' '))) (.ahead (.alt (.chr '#') .eos))]

/-- the group `rowline` of the match at the start of a line, loader.py:658-661 -/
def rowline (line : List Char) : Option (List Char) :=
  match (Re.runParts rowParts ⟨[], line⟩).head? with
  | some [b0, b1, _] => some (Re.between b0 b1)
  | _ => none

/-- the numbers of a row, loader.py:662-669; `float` returns `none` for a `ValueError` -/
def rowOf (delimiter : Re) (float : List Char → Option V) (nan : V) (text : List Char) : List V :=
  (Re.split delimiter text).map (fun item => (float item).getD nan)

/-- the list `data` after the loop, loader.py:657-670 -/
def dataRows (delimiter : Re) (float : List Char → Option V) (nan : V) (lines : List (List Char)) : List (List V) :=
  lines.filterMap (fun line => (rowline (rstrip line)).map (rowOf delimiter float nan))

/-- `list(zip_longest(*rows, fillvalue=nan))`, loader.py:671 -/
def zipLongest (nan : V) (rows : List (List V)) : List (List V) :=
  (List.range ((rows.map List.length).foldr max 0)).map (fun j => rows.map (fun r => r[j]?.getD nan))

/-- `parse_datafile`, loader.py:647-671: `\s+` by default -/
def parseDatafile (delimiter : Option Re) (float : List Char → Option V) (nan : V) (lines : List (List Char)) : List (List V) :=
  zipLongest nan (dataRows (delimiter.getD (.plus (.cls pySpace))) float nan lines)

/-- `TEdataset.from_file`, loader.py:758-763, up to the constructor call: the columns -/
def columnsTE (finite : V → Bool) (table : List (List V)) : List (List V) := table.map (fun c => c.filter finite)

/-- `nan_filter(np.vstack(block))`, loader.py:826, 832, 835: keep the positions where all columns of the block are finite;
`np.vstack` of no column raises `ValueError` -/
def filterBlock (finite : V → Bool) (block : List (List V)) : Except PyErr (List (List V)) :=
  match block with
  | [] => .error .valueError
  | c :: _ =>
    let good := (List.range c.length).filter (fun i => block.all (fun col => (col[i]?.map finite).getD false))
    .ok (block.map (fun col => good.filterMap (fun i => col[i]?)))

/-- `data[p:q] = nan_filter(np.vstack(data[p:q]))` -/
def filterAt (finite : V → Bool) (p q : Nat) (data : List (List V)) : Except PyErr (List (List V)) :=
  match filterBlock finite ((data.take q).drop p) with
  | .error e => .error e
  | .ok b => .ok (data.take p ++ b ++ data.drop q)

/-- the loop over the blocks, loader.py:834-835 -/
def filterBlocks (finite : V → Bool) : List (Nat × Nat) → List (List V) → Except PyErr (List (List V))
  | [], data => .ok data
  | (p, q) :: r, data => match filterAt finite p q data with
    | .error e => .error e
    | .ok data' => filterBlocks finite r data'

/-- positions of the temperature columns, loader.py:827 -/
def tempIdx (groups : List String) : List Nat :=
  (groups.zipIdx.filter (fun p => p.1 = "T")).map Prod.snd

/-- `TEdataset2.from_file`, loader.py:819-835, from the parsed table to the columns given to the constructor -/
def columnsTE2 (finite : V → Bool) (groups : List String) (data : List (List V)) : Except PyErr (List (List V)) :=
  match tempIdx groups with
  | [] => .error .valueError
  | [t] => match filterBlock finite (data.drop t) with
    | .error e => .error e
    | .ok b => .ok (data.take t ++ b)
  | itemp => filterBlocks finite (itemp.zip (itemp.drop 1 ++ [groups.length])) data

end DataFile

end TEflow.Loader
