import Verif.Model.KappaCfg

/-! # Reading a configuration file, /repo/src/teflow/utils.py:319-338

`CfgParser` is Python's `ConfigParser` with the settings given there: `=` alone separates name and value, `#` alone begins comments (also
behind blanks within a line), names are case sensitive, the pattern `SECTCRE` allows spaces around section names; the parser is strict,
values may span lines and contain empty lines (defaults).  The reader modelled is `RawConfigParser._read` of Python 3.11 for a parser read
once.  The values here are the raw ones; references (`$`) are modelled in `Model/CfgRef.lean`. -/

namespace TEflow.CfgText

open Re PyDict

/-- a `#` at the beginning of a line or after a blank begins a comment (`inline_comment_prefixes`, `comment_prefixes`, utils.py:321-322);
the second argument is the character before -/
def cutComment : Option Char → List Char → List Char
  | _, [] => []
  | prev, c :: cs => if c = '#' ∧ (∀ d ∈ prev, pySpace d = true) then [] else c :: cutComment (some c) cs

/-- the text before and after the first `=` (`delimiters`, utils.py:320): the pattern of option lines takes the shortest name -/
def splitEq : List Char → Option (List Char × List Char)
  | [] => none
  | c :: cs => if c = '=' then some ([], cs) else (splitEq cs).map fun p => (c :: p.1, p.2)

/-- the number of blanks a line begins with -/
def indentOf (line : List Char) : Nat := (line.takeWhile pySpace).length

/-- the exceptions of `configparser` -/
inductive CfgErr where
  | duplicateSection
  | duplicateOption
  | missingHeader
  | parsing
  deriving DecidableEq, Repr

/-- the options of a section while reading: the lines of every value -/
abbrev Opts := PyDict (List Char) (List (List Char))

/-- the name of the section of defaults -/
def defaultName : List Char := "DEFAULT".toList

/-- the variables of `_read`; `opt` is empty if there is no current option -/
structure St where
  sections : PyDict (List Char) Opts
  defaults : Opts
  sect : Option (List Char)
  opt : List Char
  indent : Nat
  bad : Bool

/-- before the first line -/
def St.start : St := { sections := [], defaults := [], sect := none, opt := [], indent := 0, bad := false }

/-- `cursect` -/
def St.current (s : St) : Opts :=
  match s.sect with
  | none => []
  | some n => if n = defaultName then s.defaults else (get? s.sections n).getD []

/-- `cursect[name] = lines` -/
def St.put (s : St) (name : List Char) (lines : List (List Char)) : St :=
  match s.sect with
  | none => s
  | some n =>
    if n = defaultName then { s with defaults := set s.defaults name lines }
    else { s with sections := set s.sections n (set s.current name lines) }

/-- `cursect[optname].append(value)` -/
def St.append (s : St) (value : List Char) : St := s.put s.opt ((get? s.current s.opt).getD [] ++ [value])

/-- a section header -/
def St.enter (s : St) (h : List Char) : Except CfgErr St :=
  if has s.sections h then .error .duplicateSection
  else if h = defaultName then .ok { s with sect := some h, opt := [] }
  else .ok { s with sections := set s.sections h [], sect := some h, opt := [] }

/-- a line `name = value` -/
def St.define (s : St) (name value : List Char) : Except CfgErr St :=
  if has s.current name then .error .duplicateOption
  else .ok { s.put name [value] with opt := name, bad := s.bad || name.isEmpty }

/-- one line which is no continuation of a value: `value` is the line without comment and blanks around it -/
def St.fresh (s : St) (value : List Char) : Except CfgErr St :=
  match KappaCfg.headerOf value with
  | some h => s.enter h
  | none =>
    if s.sect = none then .error .missingHeader
    else
      match splitEq value with
      | none => .ok { s with bad := true }
      | some p => s.define (Loader.rstrip p.1) (Loader.strip p.2)

/-- one line of the file -/
def St.step (s : St) (line : List Char) : Except CfgErr St :=
  let cut := cutComment none line
  let value := Loader.strip cut
  if value = [] then
    if cut = line ∧ s.sect ≠ none ∧ s.opt ≠ [] then .ok (s.append []) else .ok s
  else if s.sect ≠ none ∧ s.opt ≠ [] ∧ s.indent < indentOf line then .ok (s.append value)
  else { s with indent := indentOf line }.fresh value

/-- all lines -/
def St.run (s : St) : List (List Char) → Except CfgErr St
  | [] => .ok s
  | l :: ls =>
    match s.step l with
    | .error e => .error e
    | .ok s' => s'.run ls

/-- `_join_multiline_values` for one value -/
def joined (lines : List (List Char)) : List Char := Loader.rstrip (Interface.join ['\n'] lines)

/-- what a parser holds: sections in file order, and the defaults -/
structure Parsed where
  sections : PyDict (List Char) (PyDict (List Char) (List Char))
  defaults : PyDict (List Char) (List Char)
  deriving DecidableEq

/-- the values of one section -/
def values (o : Opts) : PyDict (List Char) (List Char) := o.map fun p => (p.1, joined p.2)

/-- the end of `_read` -/
def St.finish (s : St) : Except CfgErr Parsed :=
  if s.bad then .error .parsing else .ok { sections := s.sections.map fun p => (p.1, values p.2), defaults := values s.defaults }

/-- `CfgParser().read_file(f)`, utils.py:308-338 (kappa.py:1477-1480, bandlib.py:1560-1563): the lines of the file, with or without their line ends -/
def readCfg (lines : List (List Char)) : Except CfgErr Parsed :=
  match St.start.run lines with
  | .error e => .error e
  | .ok s => s.finish

/-- `config.items()` with the items of each section: options of the section first, then the defaults it does not have -/
def Parsed.items (p : Parsed) : KappaCfg.Config :=
  (defaultName, p.defaults.map fun q => (String.ofList q.1, q.2)) ::
    p.sections.map fun q => (q.1, (q.2 ++ p.defaults.filter fun d => !has q.2 d.1).map fun d => (String.ofList d.1, d.2))

end TEflow.CfgText
