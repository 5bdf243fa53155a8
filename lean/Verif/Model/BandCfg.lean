import Verif.Model.Utils
import Verif.Model.Dataset
import Verif.Model.Interface
import Verif.Model.Band
import Verif.Model.BandFuncs

/-! # `parse_Bands` of `bandlib.py` and the simulation part of `tef-band`

The configuration is given as `ConfigParser` holds it: sections in file order, each with its options in order (names distinct,
values stripped, interpolation and the defaults of `[DEFAULT]` done).  `float` is Python's `float(text)`, `root` the root
finder `root_scalar` of scipy with the starting points `x0` and `x0 + 1`.  Arrays are treated point by point (`(EF, T)` pairs); logging is not modelled. -/

namespace TEflow.BandCfg

noncomputable section

open Re PyDict Utils Bandlib

/-- a configuration: section names and options in order -/
abbrev Config := List (List Char × List (String × List Char))

/-- a band made from a section -/
inductive BandObj where
  | spb (b : Spb)
  | skb (b : Skb)
  | lin (b : Lin)

/-- its functions -/
def BandObj.fns : BandObj → BandFns
  | .spb b => b.fns
  | .skb b => b.fns
  | .lin b => b.fns

/-- `EXECMETA`, bandlib.py:1521-1542: the optional arguments of the band types (there are no required ones).  The three
entries `valuate.*` (1543-1554) make no band: a section of such a type is always an error, reported here as `KeyError`. -/
def bandMeta : List (String × List String) := [
  ("APSSPB", ["m_d", "sigma0", "Kmass"]),
  ("APSSPB_UWT", ["m_d", "UWT", "Kmass"]),
  ("APSSPB_DP", ["m1", "m2", "Nv", "Cii", "Ed"]),
  ("APSSKB", ["m_d", "sigma0", "Eg", "Kmass"]),
  ("APSSKB_UWT", ["m_d", "UWT", "Eg", "Kmass"]),
  ("APSSKB_DP", ["m1", "m2", "Nv", "Cii", "Ed", "Eg"]),
  ("LinearBand", ["vF", "sigma0"])]

/-- a keyword argument or the default of the signature -/
def argOr (a : PyDict String (Option ℝ)) (k : String) (d : ℝ) : ℝ :=
  match get? a k with
  | some (some x) => x
  | _ => d

/-- a keyword argument with default `None` -/
def argOpt (a : PyDict String (Option ℝ)) (k : String) : Option ℝ :=
  match get? a k with
  | some (some x) => some x
  | _ => none

/-- the divisions of `from_DP` with Python floats, bandlib.py:876-880, 1109-1113 -/
def dpOk (m1 : ℝ) (m2 : Option ℝ) (Ed : ℝ) : Prop :=
  m1 ≠ 0 ∧ 1 / m1 + 2 / orMass m2 m1 ≠ 0 ∧ Ed ≠ 0

open Classical in
/-- the callables of `EXECMETA` with their default arguments, bandlib.py:739, 849, 884, 1028, 1085, 1117, 1234, 1521-1542 -/
def bandCall (ty : String) (a : PyDict String (Option ℝ)) : Except PyErr BandObj :=
  if ty = "APSSPB" then .ok (.spb ⟨argOr a "m_d" 1, argOr a "sigma0" 1, argOr a "Kmass" 1⟩)
  else if ty = "APSSPB_UWT" then .ok (.spb (Spb.fromUWT (argOr a "m_d" 1) (argOr a "UWT" 1) (argOr a "Kmass" 1)))
  else if ty = "APSSPB_DP" then
    if dpOk (argOr a "m1" 1) (argOpt a "m2") (argOr a "Ed" 1) then
      .ok (.spb (Spb.fromDP (argOr a "m1" 1) (argOpt a "m2") (argOr a "Nv" 1) (argOr a "Cii" 1) (argOr a "Ed" 1)))
    else .error .zeroDivisionError
  else if ty = "APSSKB" then
    (Skb.make (argOr a "m_d" 1) (argOr a "sigma0" 1) (argOr a "Eg" 1) (argOr a "Kmass" 1)).map .skb
  else if ty = "APSSKB_UWT" then
    (Skb.fromUWT (argOr a "m_d" 1) (argOr a "UWT" 1) (argOr a "Eg" 1) (argOr a "Kmass" 1)).map .skb
  else if ty = "APSSKB_DP" then
    if dpOk (argOr a "m1" 1) (argOpt a "m2") (argOr a "Ed" 1) then
      (Skb.fromDP (argOr a "m1" 1) (argOpt a "m2") (argOr a "Nv" 1) (argOr a "Cii" 1) (argOr a "Ed" 1) (argOr a "Eg" 1)).map .skb
    else .error .zeroDivisionError
  else .ok (.lin (Lin.make (argOr a "vF" 1) (argOr a "sigma0" 1)))

/-- `{k: float(v) for k, v in content.items()}`, bandlib.py:1583 -/
def floats (float : List Char → Except PyErr ℝ) : List (String × List Char) → Except PyErr (PyDict String (Option ℝ))
  | [] => .ok []
  | (k, t) :: rest =>
    match float t with
    | .error e => .error e
    | .ok x =>
      match floats float rest with
      | .error e => .error e
      | .ok l => .ok ((k, some x) :: l)

/-- one turn of the loop over the bands, bandlib.py:1582-1585 -/
def parseBand (float : List Char → Except PyErr ℝ) (cfg : Config) (name : List Char) : Except PyErr BandObj :=
  match pmatch cfg name with
  | .error e => .error e
  | .ok (items, ty) =>
    match floats float items with
    | .error e => .error e
    | .ok kwargs =>
      match get? bandMeta (String.ofList ty) with
      | none => .error .keyError
      | some opts => ((Exec.init [] opts).execute (bandCall (String.ofList ty)) kwargs).2

/-- the section `entry` after `entry.update(specify)`, bandlib.py:1565-1569 -/
def entryOf (cfg : Config) (specify : List (String × List Char)) : Except PyErr (PyDict String (List Char)) :=
  match get? cfg "entry".toList with
  | none => .error .keyError
  | some items => .ok (update items specify)

/-- `bands`, bandlib.py:1575-1586 -/
def bandsOf (float : List Char → Except PyErr ℝ) (cfg : Config) (entry : PyDict String (List Char)) :
    Except PyErr (List BandObj) :=
  match get? entry "bands" with
  | none => .error .valueError
  | some t => (parseList t).mapM (parseBand float cfg)

/-- `entry.getlist_float('deltas', [0, ]*len(bands))`, bandlib.py:1589 -/
def deltasOf (float : List Char → Except PyErr ℝ) (n : Nat) (entry : PyDict String (List Char)) : Except PyErr (List ℝ) :=
  match get? entry "deltas" with
  | none => .ok (List.replicate n 0)
  | some t => parseListWith float t

/-- the objects made for the bands, in memory: one object for each entry of the list -/
def heapOf (bands : List BandObj) : Heap ℝ := fun i =>
  match bands[i]? with
  | some b => b.fns.leaf 1
  | none => (Lin.make 1 1).fns.leaf 1

/-- `btypes or guess_btypes(deltas)` in the log message, bandlib.py:1595: evaluated whatever the log level is -/
def logTypes (deltas : List ℝ) (btypes : Option (List (List Char))) : Except PyErr Unit :=
  match btypes with
  | some (_ :: _) => .ok ()
  | _ => (guessBtypes deltas).map fun _ => ()

/-- the model, bandlib.py:1588-1599 -/
def modelOf (float : List Char → Except PyErr ℝ) (bands : List BandObj) (entry : PyDict String (List Char)) :
    Except PyErr (Multi ℝ × Heap ℝ) :=
  match deltasOf float bands.length entry with
  | .error e => .error e
  | .ok deltas =>
    let btypes := (get? entry "btypes").map parseList
    match logTypes deltas btypes with
    | .error e => .error e
    | .ok () =>
      match construct (heapOf bands) ((List.range bands.length).map some) deltas btypes with
      | (.ok m, w) => .ok (m, w)
      | (.error e, _) => .error e

/-- `np.broadcast_arrays` of two sequences -/
def broadcast {α β : Type} (a : List α) (b : List β) : Except PyErr (List (α × β)) :=
  if a.length = b.length then .ok (a.zip b)
  else match a, b with
    | [x], _ => .ok (b.map fun y => (x, y))
    | _, [y] => .ok (a.map fun x => (x, y))
    | _, _ => .error .valueError

/-- the text before the first `@`, stripped: `EF_.split('@')[0].strip()`, bandlib.py:1615 -/
def refText (t : List Char) : List Char := Loader.strip (t.takeWhile (· ≠ '@'))

/-- the text after the last `@`, stripped: `EF_.split('@')[-1].strip()`, bandlib.py:1614 -/
def solverText (t : List Char) : List Char := Loader.strip ((t.reverse.takeWhile (· ≠ '@')).reverse)

/-- `entry.getfloat('initial', 0)`, bandlib.py:1626 -/
def initialOf (float : List Char → Except PyErr ℝ) (entry : PyDict String (List Char)) : Except PyErr ℝ :=
  match get? entry "initial" with
  | none => .ok 0
  | some t => float t

/-- the property a solver name stands for: `getattr(self, prop)` (names of other attributes are not modelled) -/
def solverProp (m : Multi ℝ) (w : Heap ℝ) (name : List Char) (EF T : ℝ) : Except PyErr ℝ :=
  if name = "Kbip".toList then m.Kbip w (some (EF, T))
  else match TProp.all.find? fun p => p.name = String.ofList name with
    | some p => needNum (m.prop w p (some (EF, T)))
    | none => .error .attributeError

/-- `model.solve_EF(prop, value, T, near=initial)` at one point, bandlib.py:416-424.  A search that does not converge gives NaN in
the program (`root` has to return an error or some number here). -/
def solveEF (root : (ℝ → Except PyErr ℝ) → ℝ → Except PyErr ℝ) (m : Multi ℝ) (w : Heap ℝ) (name : List Char)
    (init value T : ℝ) : Except PyErr ℝ :=
  (root (fun x => (solverProp m w name (x * kB * T) T).map fun y => y - value) init).map fun x => x * kB * T

/-- the Fermi levels solved from reference data, bandlib.py:1613-1632.  `solve` is `model.solve_EF` at one point: the name of
the property, the initial value, the datum and the temperature; `np.vectorize` refuses empty arrays.  Every exception becomes a
`RuntimeError`. -/
def solved (float : List Char → Except PyErr ℝ) (solve : List Char → ℝ → ℝ → ℝ → Except PyErr ℝ)
    (entry : PyDict String (List Char)) (EF : List Char) (T : List ℝ) : Except PyErr (List (ℝ × ℝ)) :=
  match parseSeq float (refText EF) with
  | .error e => .error e
  | .ok ref =>
    match broadcast ref T with
    | .error e => .error e
    | .ok pts =>
      match initialOf float entry with
      | .error _ => .error .runtimeError
      | .ok init =>
        if pts = [] then .error .runtimeError
        else match pts.mapM (fun p => solve (solverText EF) init p.1 p.2) with
          | .error _ => .error .runtimeError
          | .ok efs => .ok (efs.zip (pts.map Prod.snd))

/-- the points `(EF, T)` to be computed; `none` when `T` or `EF` is not given, bandlib.py:1601-1640 -/
def pointsOf (float : List Char → Except PyErr ℝ) (solve : List Char → ℝ → ℝ → ℝ → Except PyErr ℝ)
    (entry : PyDict String (List Char)) : Except PyErr (Option (List (ℝ × ℝ))) :=
  match get? entry "T" with
  | none => .ok none
  | some tT =>
    match parseSeq float tT with
    | .error e => .error e
    | .ok T =>
      match get? entry "EF" with
      | none => .ok none
      | some tEF =>
        if '@' ∈ tEF then (solved float solve entry tEF T).map some
        else match parseSeq float tEF with
          | .error e => .error e
          | .ok EF => (broadcast EF T).map some

/-- `props`, bandlib.py:1649-1650 -/
def propsOf (entry : PyDict String (List Char)) : List String :=
  match get? entry "properties" with
  | none => ["T", "EF", "N", "C", "S", "PF", "L", "Ke"]
  | some t => (parseList t).map String.ofList

/-- a model compiled at one point -/
structure Compiled where
  model : Multi ℝ
  heap : Heap ℝ

/-- `model.compile(EF, T)` at one point, bandlib.py:1648 -/
def compileAt (m : Multi ℝ) (w : Heap ℝ) (p : ℝ × ℝ) : Except PyErr Compiled :=
  match m.compile w p.1 p.2 2 with
  | (.ok (), m', w') => .ok ⟨m', w'⟩
  | (.error e, _, _) => .error e

/-- what `parse_Bands` returns: the model compiled at every point and the properties (`none`: incomplete input),
bandlib.py:1558-1652 -/
def parseBands (float : List Char → Except PyErr ℝ) (root : (ℝ → Except PyErr ℝ) → ℝ → Except PyErr ℝ)
    (cfg : Config) (specify : List (String × List Char)) : Except PyErr (Option (List Compiled × List String)) :=
  match entryOf cfg specify with
  | .error e => .error e
  | .ok entry =>
    match bandsOf float cfg entry with
    | .error e => .error e
    | .ok bands =>
      match modelOf float bands entry with
      | .error e => .error e
      | .ok (m, w) =>
        match pointsOf float (solveEF root m w) entry with
        | .error e => .error e
        | .ok none => .ok none
        | .ok (some pts) =>
          match pts.mapM (compileAt m w) with
          | .error e => .error e
          | .ok cs => .ok (some (cs, propsOf entry))

/-- `model[key]` of a compiled `MultiBands` at one point, bandlib.py:287-295, 432, 612 -/
def Compiled.item (c : Compiled) (key : String) : Except PyErr ℝ :=
  if key = "Kbip" then
    match c.model.cache with
    | none => .error .runtimeError
    | some _ => c.model.Kbip c.heap none
  else needNum (getItem c.model.cache (c.model.src c.heap none) key)

/-- a column of the output: one property at all points -/
def columnOf (cs : List Compiled) (key : String) : Except PyErr (String × List ℝ) :=
  match cs.mapM (fun c => c.item key) with
  | .error e => .error e
  | .ok l => .ok (key, l)

/-- the table `tef-band` writes without `-m`: columns in order, interface.py:1083-1095 -/
def simulate (float : List Char → Except PyErr ℝ) (root : (ℝ → Except PyErr ℝ) → ℝ → Except PyErr ℝ)
    (cfg : Config) (specify : List (String × List Char)) : Except PyErr (PyDict String (List ℝ)) :=
  match parseBands float root cfg specify with
  | .error e => .error e
  | .ok none => .error .runtimeError
  | .ok (some (cs, props)) =>
    match props.mapM (columnOf cs) with
    | .error e => .error e
    | .ok cols => .ok (ofPairs cols)

end

end TEflow.BandCfg
