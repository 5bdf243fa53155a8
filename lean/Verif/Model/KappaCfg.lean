import Verif.Model.Re
import Verif.Model.Utils
import Verif.Model.Dataset
import Verif.Model.Interface
import Verif.Model.KappaVar
import Verif.Model.KappaModels

/-! # `parse_KappaFit` of `kappa.py`: variables, sub-models, substituted configuration, options

The configuration is given as `ConfigParser` holds it: sections in file order, each with its options in order (names distinct,
values stripped, interpolation done).  `float` is Python's `float(text)`.  Logging, reading the experimental data
(`np.loadtxt`) and the least-squares fit itself are not modelled. -/

namespace TEflow.KappaCfg

noncomputable section

open Re PyDict Utils

/-! ## The section `variables` -/

/-- `\S` -/
def nonSpace (c : Char) : Bool := !pySpace c
/-- `[^\s<@]` -/
def scaleChar (c : Char) : Bool := !(pySpace c || c == '<' || c == '@')
/-- `\s*` -/
def sp : Re := .star (.cls pySpace)

/-- `varbpat` up to the optional bounds, kappa.py:1494 -/
def varHead : List Re := [sp, opt (plus (.cls nonSpace)), sp, chr '?', sp, opt (plus (.cls scaleChar)), sp]

/-- the bounds of `varbpat`, kappa.py:1495 -/
def varBounds : List Re :=
  [chr '<', sp, opt (plus (.cls nonSpace)), sp, chr ',', sp, opt (plus (.cls nonSpace)), sp, chr '>']

/-- the texts of the groups; `none`: did not take part in the match -/
structure Groups where
  initial : Option (List Char) := none
  scale : Option (List Char) := none
  lower : Option (List Char) := none
  upper : Option (List Char) := none

/-- a group of the form `(...+)?` took part in the match when its text is not empty -/
def group (s t : Pos) : Option (List Char) := if (between s t).isEmpty then none else some (between s t)

/-- the bounds at a position: the whole optional group is tried first, otherwise nothing is matched -/
def bounds (s : Pos) : Option (List Char) × Option (List Char) :=
  match (runParts varBounds s).head? with
  | some [_, p1, p2, _, _, p5, p6, _, _] => (group p1 p2, group p5 p6)
  | _ => (none, none)

/-- `varbpat.match(val)`, kappa.py:1494-1497.  The optional bounds come last and can always be left out, so the first way to
match what precedes them is the one taken. -/
def parseVar (val : List Char) : Option Groups :=
  match (runParts varHead ⟨[], val⟩).head? with
  | some [p0, p1, _, _, p4, p5, p6] =>
    some ⟨group p0 p1, group p4 p5, (bounds p6).1, (bounds p6).2⟩
  | _ => none

/-- what a name stands for: a number or a `Variable` -/
inductive VarVal where
  | const (x : ℝ)
  | var (i : Nat)

/-- `float(v)` for a group, or the default of `Variable` -/
def setting (float : List Char → Except PyErr ℝ) (g : Option (List Char)) (dflt : ℝ) : Except PyErr ℝ :=
  match g with
  | none => .ok dflt
  | some t => float t

/-- the keyword arguments, kappa.py:1500 -/
def varArgs (float : List Char → Except PyErr ℝ) (g : Groups) : Except PyErr KappaVar.Args := do
  let initial ← setting float g.initial 1
  let scale ← setting float g.scale 1
  let lower ← setting float g.lower 0
  let upper ← setting float g.upper 1000
  return { initial := initial, lower := lower, upper := upper, scale := scale }

/-- one round of the loop, kappa.py:1496-1511 -/
def parseVarLine (float : List Char → Except PyErr ℝ) (tag val : List Char) (s : KappaVar.St) : Except PyErr VarVal × KappaVar.St :=
  match parseVar val with
  | some g =>
    match varArgs float g with
    | .error _ => (.error .valueError, s)
    | .ok a =>
      match KappaVar.construct s tag a with
      | (.error e, s1) => (.error e, s1)
      | (.ok i, s1) => (.ok (.var i), s1)
  | none =>
    match float val with
    | .error _ => (.error .valueError, s)
    | .ok x => (.ok (.const x), s)

/-- the loop over the section, kappa.py:1496-1511: `varbdict` and the state of the variables -/
def parseVars (float : List Char → Except PyErr ℝ) : List (List Char × List Char) → KappaVar.St →
    Except PyErr (List (List Char × VarVal)) × KappaVar.St
  | [], s => (.ok [], s)
  | (tag, val) :: rest, s =>
    match parseVarLine float tag val s with
    | (.error e, s1) => (.error e, s1)
    | (.ok v, s1) =>
      match parseVars float rest s1 with
      | (.error e, s2) => (.error e, s2)
      | (.ok l, s2) => (.ok ((tag, v) :: l), s2)

/-- `fitting`, kappa.py:1489, 1503 -/
def fitting (l : List (List Char × VarVal)) : List Nat :=
  l.filterMap fun p => match p.2 with
    | .var i => some i
    | .const _ => none

/-! ## Sub-models -/

/-- `EXECMETA`: type, required and optional arguments, kappa.py:1404-1472 -/
def execMeta : List (String × List String × List String) := [
  ("DEBYE", ["vs", "td", "components"], []),
  ("PH", ["gm", "vs", "Va", "Ma"], ["A", "Theta"]),
  ("PHX", ["coef"], ["Theta"]),
  ("PD", ["vs", "Va", "G"], []),
  ("PDX", ["coef"], []),
  ("GB", ["vs", "L"], ["alpha"]),
  ("NP", ["vs", "R", "N1", "D0", "D1"], ["Y0", "Y1", "alpha"]),
  ("NPX", ["vs", "R", "phi", "D0", "D1"], ["Y0", "Y1", "alpha"]),
  ("DL", ["Nd", "vs", "Va", "Bd", "gm"], ["F", "alpha"]),
  ("SF", ["Nsf", "vs", "Va", "gm"], ["alpha"]),
  ("EP", ["vs", "md", "EF", "Ed", "D0"], []),
  ("EPR", ["vs", "md", "Ed", "D0", "Rep"], []),
  ("EPX", ["vs", "md", "EF", "coef"], []),
  ("EPRX", ["Rep", "coef"], []),
  ("CAHILL", [], ["alpha"]),
  ("SLACK", ["td", "gm", "Ma", "Va", "A"], ["N"]),
  ("BIPOLAR", ["Kbp", "Eg"], ["p"]),
  ("POWERLAW", ["Kamb"], ["n", "K0"]),
  ("KLEMENS", ["Kpure", "vs", "td", "G0", "Va"], [])]

/-- the types that are models of the thermal conductivity (sub-classes of `BaseKappaModel`); the others are scattering
mechanisms (sub-classes of `BaseScattering`) -/
def kappaTypes : List String := ["DEBYE", "SLACK", "BIPOLAR", "POWERLAW", "KLEMENS"]

/-- a value passed to a constructor -/
inductive Val (β : Type) where
  | num (x : ℝ)
  | ref (v : VarVal)
  | text (t : List Char)
  | comps (l : List β)

/-- an object made from a section: its type, its tag and the arguments it was made with -/
inductive Obj where
  | mk (ty : String) (tag : List Char) (args : List (String × Option (Val Obj)))

/-- the type of an object -/
def Obj.ty : Obj → String
  | .mk t _ _ => t
/-- the tag of an object -/
def Obj.tag : Obj → List Char
  | .mk _ t _ => t
/-- the arguments an object was made with -/
def Obj.args : Obj → PyDict String (Option (Val Obj))
  | .mk _ _ a => a

/-- `refpat`, kappa.py:1522 -/
def refParts : List Re := [.bos, sp, chr '@', sp, opt (plus (.cls nonSpace)), sp, .eos]

/-- `refpat.match(val)`: `none` when it does not match, the named variable (or the key) when it does, kappa.py:1540-1542 -/
def refTag (key val : List Char) : Option (List Char) :=
  match (runParts refParts ⟨[], val⟩).head? with
  | some [_, _, _, p3, p4, _, _] => some ((group p3 p4).getD key)
  | _ => none

/-- the value of one option, kappa.py:1529-1555; `sub` is `parse_submodel` -/
def itemVal (float : List Char → Except PyErr ℝ) (vars : List (List Char × VarVal)) (sub : List Char → Except PyErr Obj)
    (key : String) (val : List Char) : Except PyErr (Val Obj) :=
  if (Loader.strip val).isEmpty then .error .valueError
  else if key = "components" then
    match (parseList val).mapM sub with
    | .error e => .error e
    | .ok l => .ok (.comps l)
  else
    match refTag key.toList val with
    | some tag =>
      match get? vars tag with
      | none => .error .valueError
      | some v => .ok (.ref v)
    | none =>
      match float val with
      | .ok x => .ok (.num x)
      | .error _ => .ok (.text val)

/-- the loop over the options, kappa.py:1529-1555 -/
def itemVals (float : List Char → Except PyErr ℝ) (vars : List (List Char × VarVal)) (sub : List Char → Except PyErr Obj) :
    List (String × List Char) → Except PyErr (PyDict String (Option (Val Obj)))
  | [] => .ok []
  | (key, val) :: rest =>
    match itemVal float vars sub key val with
    | .error e => .error e
    | .ok v =>
      match itemVals float vars sub rest with
      | .error e => .error e
      | .ok l => .ok ((key, some v) :: l)

/-- the checks of `KappaDebye.__init__` (see `Kappa.Debye.make` and C85); the other constructors accept whatever `EXECMETA`
requires -/
def debyeOk (l : List Obj) : Bool :=
  decide (((l.filter fun o => !(o.ty ∈ kappaTypes)).map Obj.tag).Nodup) &&
  decide (((l.filter fun o => o.ty ∈ kappaTypes).map Obj.tag).Nodup) &&
  !(l.filter fun o => !(o.ty ∈ kappaTypes)).isEmpty

/-- the constructor of a type; the tag is then set to the name of the section, kappa.py:1556-1558 -/
def makeObj (ty : String) (name : List Char) (args : PyDict String (Option (Val Obj))) : Except PyErr Obj :=
  if ty = "DEBYE" then
    match get? args "components" with
    | some (some (.comps l)) => if debyeOk l then .ok (.mk ty name args) else .error .valueError
    | _ => .error .typeError
  else .ok (.mk ty name args)

/-- `EXECMETA[mtype].execute(**kwargs)`, kappa.py:1526-1527, 1556 -/
def execSection (ty : String) (name : List Char) (spec : List String × List String)
    (kwargs : PyDict String (Option (Val Obj))) : Except PyErr Obj :=
  ((Exec.init spec.1 spec.2).execute (makeObj ty name) kwargs).2

/-- a configuration: section names and options in order -/
abbrev Config := List (List Char × List (String × List Char))

/-- `parse_submodel`, kappa.py:1523-1559.  The first argument is the recursion limit of the interpreter. -/
def parseSub (float : List Char → Except PyErr ℝ) (cfg : Config) (vars : List (List Char × VarVal)) :
    Nat → List Char → Except PyErr Obj
  | 0, _ => .error .recursionError
  | n + 1, name =>
    match pmatch cfg name with
    | .error e => .error e
    | .ok (items, mtype) =>
      match get? execMeta (String.ofList mtype) with
      | none => .error .typeError
      | some spec =>
        match itemVals float vars (parseSub float cfg vars n) items with
        | .error e => .error e
        | .ok kwargs => execSection (String.ofList mtype) name spec kwargs

/-! ## The substituted configuration -/

/-- `SECTCRE`, utils.py:336 -/
def headerParts : List Re := [chr '[', .star (chr ' '), lazyPlus (.cls (· != ']')), .star (chr ' '), chr ']']

/-- `config.SECTCRE.match(line.strip())`: the name of the section, kappa.py:1589, 1594 -/
def headerOf (line : List Char) : Option (List Char) :=
  match (runParts headerParts ⟨[], Loader.strip line⟩).head? with
  | some [_, p1, p2, _, _] => some (between p1 p2)
  | _ => none

/-- the loop for `numstart` and `numend`, kappa.py:1586-1595; `i` is the number of the first line of the list -/
def sectionRange : Nat → Option Nat → List (List Char) → Option Nat × Nat
  | i, start, [] => (start, i)
  | i, start, l :: ls =>
    match headerOf l with
    | none => sectionRange (i + 1) start ls
    | some h =>
      match start with
      | some k => (some k, i)
      | none => sectionRange (i + 1) (if h = "variables".toList then some i else none) ls

/-- `.` -/
def anyChar : Re := .cls (· != '\n')

/-- a tag used as a pattern: letters, digits, underscores (and other characters that mean themselves) and the dot; other special
characters are not modelled (`none`), kappa.py:1603 -/
def tagRe : List Char → Option Re
  | [] => some .eps
  | c :: cs =>
    if "\\^$*+?{}[]|()".toList.contains c then none
    else
      match tagRe cs with
      | none => none
      | some r => some (.seq (if c = '.' then anyChar else chr c) r)

/-- `rf'{tag}\s*=.*?\?'`, kappa.py:1603 -/
def linePat (tag : Re) : Re := .seq tag (.seq sp (.seq (chr '=') (.seq (.lazyStar anyChar) (chr '?'))))

/-- `re.match(..., subs[num].strip())` -/
def lineMatches (tag : Re) (line : List Char) : Bool := (matchAt (linePat tag) ⟨[], Loader.strip line⟩).isSome

/-- `linepat.sub(repl, line, 1)` with `linepat = (?<==).*?\?`, kappa.py:1598, 1606: the first position after a `=` at which the
rest matches; `prev` is the character before -/
def subFirst (repl : List Char) : Option Char → List Char → List Char
  | _, [] => []
  | prev, c :: cs =>
    if prev = some '=' then
      match matchAt (.seq (.lazyStar anyChar) (chr '?')) ⟨[], c :: cs⟩ with
      | some t => repl ++ t.rest
      | none => c :: subFirst repl (some c) cs
    else c :: subFirst repl (some c) cs

/-- the new text of a line, kappa.py:1606; `value` is the value formatted with `:.6g` -/
def newLine (value line : List Char) : List Char := subFirst (' ' :: value ++ " # ?".toList) none line

/-- the search among the lines of the section, kappa.py:1602-1609; `k` lines are still to be looked at -/
def replaceLine (tag : Re) (value : List Char) : Nat → List (List Char) → Option (List (List Char))
  | 0, _ => none
  | _, [] => none
  | k + 1, l :: ls =>
    if lineMatches tag l then some (newLine value l :: ls)
    else
      match replaceLine tag value k ls with
      | none => none
      | some r => some (l :: r)

/-- one fitted variable: the lines `numstart .. numend-1` are searched -/
def replaceVar (a b : Nat) (tag : Re) (value : List Char) (lines : List (List Char)) : Except PyErr (List (List Char)) :=
  match replaceLine tag value (b - a) (lines.drop a) with
  | none => .error .runtimeError
  | some r => .ok (lines.take a ++ r)

/-- the loop over the fitted variables, kappa.py:1599-1609 -/
def replaceVars (a b : Nat) : List (Re × List Char) → List (List Char) → Except PyErr (List (List Char))
  | [], lines => .ok lines
  | (tag, value) :: rest, lines =>
    match replaceVar a b tag value lines with
    | .error e => .error e
    | .ok lines' => replaceVars a b rest lines'

/-- `subs`, kappa.py:1583-1610; without a header `[variables]` the call `range(None, ...)` fails -/
def substituted (vars : List (Re × List Char)) (lines : List (List Char)) : Except PyErr (List (List Char)) :=
  match sectionRange 0 none lines with
  | (none, _) => .error .typeError
  | (some a, b) => replaceVars a b vars lines

/-- the same with the tags themselves; `none` when a tag is not modelled as a pattern -/
def substitutedTags (vars : List (List Char × List Char)) (lines : List (List Char)) : Option (Except PyErr (List (List Char))) :=
  match vars.mapM fun p => (tagRe p.1).map fun r => (r, p.2) with
  | none => none
  | some l => some (substituted l lines)

/-- kappa.py:1599-1606: the text written for a fitted variable is `value * scale`, formatted with `:.6g` (`fmt`, not modelled); the
fitted variables are not constrained, so that `value` is the attribute `_value` (kappa.py:158) -/
def substitutedFile (fmt : ℝ → List Char) (fitting : List (List Char × KappaVar.Var)) (lines : List (List Char)) :
    Option (Except PyErr (List (List Char))) :=
  substitutedTags (fitting.map fun p => (p.1, fmt (p.2.value * p.2.scale))) lines

/-! ## Options -/

/-- `str.lower` as far as the letters of the unit names are concerned -/
def lowerAscii (c : Char) : Char := if 'A' ≤ c ∧ c ≤ 'Z' then Char.ofNat (c.toNat + 32) else c

/-- `re.match(prefix, text, re.IGNORECASE)` for a literal prefix given in lower case -/
def prefixCI (p : String) (t : List Char) : Bool := p.toList.isPrefixOf (t.map lowerAscii)

/-- the factor of `frequnit`, kappa.py:1657-1680 -/
def freqUnit (float : List Char → Except PyErr ℝ) (wd temper : ℝ) (text : List Char) : ℝ :=
  match float text with
  | .ok x => x
  | .error _ =>
    if prefixCI "thz" text then 2 * Real.pi
    else if prefixCI "omega_d" text || prefixCI "wd" text || prefixCI "w_d" text || prefixCI "norm" text then wd
    else if prefixCI "reduce" text || prefixCI "x" text then temper / Kappa.hbarKB
    else if prefixCI "mev" text then 1602176634 / 1054571817
    else 1

/-- the least element of a non-empty array -/
def arrMin : ℝ → List ℝ → ℝ
  | x, [] => x
  | x, y :: ys => min x (arrMin y ys)
/-- the greatest element of a non-empty array -/
def arrMax : ℝ → List ℝ → ℝ
  | x, [] => x
  | x, y :: ys => max x (arrMax y ys)

/-- `predX`, kappa.py:1616-1628: given points, or a range around the data -/
def predX (predict : List ℝ) (data : Option (ℝ × List ℝ)) (margin : ℝ) (npoints : Int) : Except PyErr (List ℝ) :=
  if predict ≠ [] then .ok predict
  else
    match data with
    | none => .error .runtimeError
    | some (x, xs) =>
      Interface.linspace ((1 + |margin|) * arrMin x xs - |margin| * arrMax x xs)
        ((1 + |margin|) * arrMax x xs - |margin| * arrMin x xs) |npoints|

/-- `model.tag != KappaDebye.tag`, kappa.py:1640: whether the results of a Debye model (split prediction, scattering rates, spectra,
mean free paths) are computed as well -/
def debyeResults (o : Obj) : Bool := decide (o.tag = "DEBYE".toList)

/-- the columns and labels of the prediction for a Debye model, kappa.py:1629-1652 -/
def debyeColumns (quad : (ℝ → ℝ) → ℝ → ℝ → ℝ) (d : Kappa.Debye) (split : Bool) : List (List Char × (ℝ → ℝ)) :=
  if split then
    ("Kappa-Total".toList, fun T => d.call quad T none) ::
      ((List.range d.scat.length).map fun i =>
        (['+'].intercalate ((keys d.scat).take (i + 1)), fun T => d.call quad T (some (i + 1)))) ++
      d.add.map fun p => (p.1, p.2)
  else [("Kappa-DEBYE".toList, fun T => d.call quad T none)]

end

end TEflow.KappaCfg
