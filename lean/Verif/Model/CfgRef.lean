import Verif.Model.CfgText
import Verif.Model.Instr

/-! # References in configuration files: `${…}`

/repo/src/teflow/utils.py:319-325 makes `CfgParser` a `ConfigParser` with `ExtendedInterpolation()`, so that every value read
(`config['variables'].items()` kappa.py:1497, `entry.get('model')` kappa.py:1519, `subsect.items()` kappa.py:1533, `entry.getlist('bands')`
bandlib.py:1582, `entry.get(…)` loader.py:958-) is the raw value with its references replaced.  Modelled here are `ExtendedInterpolation`
(`before_get`, `_interpolate_some`, `before_set`) and `RawConfigParser.get`, `items`, `set` of Python 3.11 with the settings of utils.py:319-338
(names of options are not changed, so `optionxform` is the identity). -/

namespace TEflow.CfgRef

open PyDict CfgText

/-- the exceptions of reading a value -/
inductive RefErr where
  | noSection
  | noOption
  | syntaxError
  | missing
  | depth
  deriving DecidableEq, Repr

/-- `parser.get(section, option, raw=True)`: the option of the section, else the one of `[DEFAULT]`; a section that is not there has none -/
def rawGet (p : Parsed) (sect opt : List Char) : Except RefErr (List Char) :=
  match get? p.sections sect with
  | some opts =>
    match (get? opts opt).or (get? p.defaults opt) with
    | some v => .ok v
    | none => .error .noOption
  | none =>
    if sect = defaultName then
      match get? p.defaults opt with
      | some v => .ok v
      | none => .error .noOption
    else .error .noSection

/-- what `_interpolate_some` finds from left to right: a character, a reference, or something it refuses (nothing behind it is looked at) -/
inductive Tok where
  | char (c : Char)
  | ref (name : List Char)
  | bad
  deriving DecidableEq

/-- where the scan is: in plain text, after a `$`, or within `${` with the characters of the name so far (reversed) -/
inductive Scan where
  | plain
  | dollar
  | name (acc : List Char)

/-- the loop of `_interpolate_some`: `rest.find('$')`, then `$$`, or the pattern `\$\{([^}]+)\}`; a `$` followed by anything else, a reference
that is not closed and one without a name are refused -/
def scan : Scan → List Char → List Tok
  | .plain, [] => []
  | .plain, c :: r => if c = '$' then scan .dollar r else .char c :: scan .plain r
  | .dollar, [] => [.bad]
  | .dollar, c :: r => if c = '$' then .char '$' :: scan .plain r else if c = '{' then scan (.name []) r else [.bad]
  | .name _, [] => [.bad]
  | .name acc, c :: r => if c = '}' then (if acc = [] then [.bad] else .ref acc.reverse :: scan .plain r) else scan (.name (c :: acc)) r

/-- the section and option a reference names, seen from a section: `m.group(1).split(':')` -/
def target (sect name : List Char) : Option (List Char × List Char) :=
  match Loader.splitOnChar ':' name with
  | [o] => some (sect, o)
  | [s, o] => some (s, o)
  | _ => none

/-- the pieces put together; `deeper` reads a value that has a `$` of its own -/
def build (p : Parsed) (deeper : List Char → List Char → Except RefErr (List Char)) (sect : List Char) : List Tok → Except RefErr (List Char)
  | [] => .ok []
  | .char c :: r =>
    match build p deeper sect r with
    | .ok out => .ok (c :: out)
    | .error e => .error e
  | .bad :: _ => .error .syntaxError
  | .ref name :: r =>
    match target sect name with
    | none => .error .syntaxError
    | some t =>
      match rawGet p t.1 t.2 with
      | .error _ => .error .missing
      | .ok v =>
        match (if '$' ∈ v then deeper t.1 v else .ok v) with
        | .error e => .error e
        | .ok a =>
          match build p deeper sect r with
          | .ok out => .ok (a ++ out)
          | .error e => .error e

/-- `_interpolate_some` with `levels` levels left: `depth > MAX_INTERPOLATION_DEPTH` is an error -/
def expand (p : Parsed) : Nat → List Char → List Char → Except RefErr (List Char)
  | 0, _, _ => .error .depth
  | n + 1, sect, text => build p (expand p n) sect (scan .plain text)

/-- `MAX_INTERPOLATION_DEPTH` -/
def maxDepth : Nat := 10

/-- `parser.get(section, option)`, i.e. `config[section][option]` -/
def read (p : Parsed) (sect opt : List Char) : Except RefErr (List Char) :=
  match rawGet p sect opt with
  | .error e => .error e
  | .ok v => expand p maxDepth sect v

/-- a section with all its values read, in the order of `SectionProxy` (own options, then the defaults it does not have) -/
def readAll (p : Parsed) (sect : List Char) : List (List Char) → Except RefErr (List (String × List Char))
  | [] => .ok []
  | o :: os =>
    match read p sect o with
    | .error e => .error e
    | .ok v =>
      match readAll p sect os with
      | .error e => .error e
      | .ok r => .ok ((String.ofList o, v) :: r)

/-- `config[section].items()` -/
def readItems (p : Parsed) (sect : List Char) : Except RefErr (List (String × List Char)) :=
  if sect = defaultName then readAll p sect (p.defaults.map Prod.fst)
  else
    match get? p.sections sect with
    | none => .error .noSection
    | some opts => readAll p sect ((opts ++ p.defaults.filter fun d => !has opts d.1).map Prod.fst)

/-- `value.replace('$$', '')` -/
def dropPairs : List Char → List Char
  | [] => []
  | [c] => [c]
  | c :: d :: r => if c = '$' ∧ d = '$' then dropPairs r else c :: dropPairs (d :: r)

/-- whether a `$` is left after `_KEYCRE.sub('', …)`: the pattern matches at the leftmost places possible -/
def leftOver : Scan → List Char → Bool
  | .plain, [] => false
  | .plain, c :: r => if c = '$' then leftOver .dollar r else leftOver .plain r
  | .dollar, [] => true
  | .dollar, c :: r => if c = '{' then leftOver (.name []) r else true
  | .name _, [] => true
  | .name acc, c :: r => if c = '}' then (if acc = [] then true else leftOver .plain r) else leftOver (.name (c :: acc)) r

/-- `parser.set(section, option, value)`, one step of `entry.update(specify)` (kappa.py:1485-1487, bandlib.py:1568-1570, loader.py:954-956):
`before_set` refuses a value with a `$` that is neither doubled nor part of a reference -/
def setOption (p : Parsed) (sect opt value : List Char) : Except PyErr Parsed :=
  if leftOver .plain (dropPairs value) then .error .valueError
  else match get? p.sections sect with
    | none => .error .keyError
    | some opts => .ok { p with sections := PyDict.set p.sections sect (PyDict.set opts opt value) }

end TEflow.CfgRef
