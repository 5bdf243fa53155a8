import Mathlib.Algebra.Field.Basic
import Verif.Model.Dataset
import Verif.Model.Utils

/-! # Model of the instrument parsers and of `parse_TEfile`, /repo/src/teflow/loader.py:838-1032

`float` (Python's conversion, `none` for a `ValueError`) is a parameter.  Log messages are not modelled. -/

namespace TEflow.Loader

/-- `str.split(sep)` for a one-character separator -/
def splitOnChar (sep : Char) : List Char → List (List Char)
  | [] => [[]]
  | c :: r => if c = sep then [] :: splitOnChar sep r else
    match splitOnChar sep r with
    | [] => [[c]]
    | p :: ps => (c :: p) :: ps

/-- `str.startswith` -/
def startsWith (p s : List Char) : Bool := p.isPrefixOf s

/-- `sub in s` for texts -/
def hasSub (sub s : List Char) : Bool := s.tails.any (fun t => sub.isPrefixOf t)

/-- the wrapper of `_registerInstr`, loader.py:840-852: the text, or the content of the file it names; `readFile` gives the
content of a file or an error -/
def instrText (readFile : List Char → Except PyErr (List Char)) (text : List Char) : Except PyErr (List Char) :=
  let text := strip text
  if startsWith "file:".toList text then readFile (strip (text.drop 5)) else .ok text

/-- the lines after the first one that satisfies `header`, loader.py:855-862, 891-901 -/
def afterHeader (header : List Char → Bool) : List (List Char) → Except PyErr (List (List Char))
  | [] => .error .ioError
  | l :: ls => if header l then .ok ls else afterHeader header ls

section
variable {K : Type} (float : List Char → Option K)

/-- the columns of CTA and ZEM data -/
structure TRS (K : Type) where
  T : List K
  R : List K
  S : List K

/-- the loop of `_parse_CTA_ZEM`, loader.py:865-872 -/
def ctaLoop : List (List Char) → TRS K → Except PyErr (TRS K)
  | [], d => .ok d
  | line :: ls, d =>
    let values := splitOnChar '\t' (strip line)
    match values with
    | v0 :: v1 :: _ :: _ :: v4 :: _ =>
      match float v0 with
      | none => .error .valueError
      | some t => match float v1 with
        | none => .error .valueError
        | some r => match float v4 with
          | none => .error .valueError
          | some s => ctaLoop ls ⟨d.T ++ [t], d.R ++ [r], d.S ++ [s]⟩
    | _ => ctaLoop ls d

/-- `_parse_CTA_ZEM`, loader.py:854-873 -/
def parseCtaZem (identifiers : List (List Char)) (text : List Char) : Except PyErr (TRS K) :=
  match afterHeader (fun line => identifiers.all (fun i => hasSub i line)) (splitOnChar '\n' text) with
  | .error e => .error e
  | .ok ls => ctaLoop float ls ⟨[], [], []⟩

/-- loader.py:877 -/
def ctaIds : List (List Char) := ["Temperature".toList, "Resistivity".toList, "Seebeck coefficient".toList]
/-- loader.py:884 -/
def zemIds : List (List Char) := ["Measurement temp".toList, "Resistivity".toList, "Seebeck coeff".toList]

variable [Field K]

/-- `parseCTA`, loader.py:875-880 -/
def parseCTA (text : List Char) : Except PyErr (TRS K) :=
  match parseCtaZem float ctaIds text with
  | .error e => .error e
  | .ok d => .ok { d with T := d.T.map (· + 273) }

/-- `parseZEM`, loader.py:882-889 -/
def parseZEM (text : List Char) : Except PyErr (TRS K) :=
  match parseCtaZem float zemIds text with
  | .error e => .error e
  | .ok d => .ok { T := d.T.map (· + 273), R := d.R.map (· * 1000000), S := d.S.map (· * 1000000) }

/-- the columns of LFA data -/
structure TA (K : Type) where
  T : List K
  A : List K

/-- one appended point, loader.py:911-912: `float` of the two fields, temperature shifted -/
def lfaPoint (v1 v2 : List Char) (d : TA K) : Except PyErr (TA K) :=
  match float v1 with
  | none => .error .valueError
  | some t => match float v2 with
    | none => .error .valueError
    | some a => .ok ⟨d.T ++ [t + 273], d.A ++ [a]⟩

/-- the loop over '#Mean' lines, loader.py:904-912 -/
def lfaMean : List (List Char) → TA K → Except PyErr (TA K)
  | [], d => .ok d
  | line :: ls, d =>
    let line := strip line
    if startsWith "#Mean".toList line then
      match (splitOnChar ',' line).filter (fun x => !x.isEmpty) with
      | _ :: v1 :: v2 :: _ => match lfaPoint float v1 v2 d with
        | .error e => .error e
        | .ok d => lfaMean ls d
      | _ => lfaMean ls d
    else lfaMean ls d

/-- the fall-back loop, loader.py:918-926 -/
def lfaAll : List (List Char) → TA K → Except PyErr (TA K)
  | [], d => .ok d
  | line :: ls, d =>
    match splitOnChar ',' (strip line) with
    | _ :: v1 :: v2 :: _ => match lfaPoint float v1 v2 d with
      | .error e => .error e
      | .ok d => lfaAll ls d
    | _ => lfaAll ls d

/-- `parseLFA`, loader.py:891-930.  `rawlines[idx+1:]` after `idx += 1` skips the line after the header. -/
def parseLFA (text : List Char) : Except PyErr (TA K) :=
  match afterHeader (startsWith "##Results".toList) (splitOnChar '\n' text) with
  | .error e => .error e
  | .ok ls =>
    let ls := ls.drop 1
    match lfaMean float ls ⟨[], []⟩ with
    | .error e => .error e
    | .ok d =>
      if !d.T.isEmpty && !d.A.isEmpty then .ok d
      else match lfaAll float ls d with
        | .error _ => .error .ioError
        | .ok d => .ok d

/-- `parse_CpT(weight, *args, model)` applied to a temperature array, loader.py:932-942 -/
def parseCpT (weight : K) (model : List Char) (T : List K) : Except PyErr (List K) :=
  if model = "Dulong-Petit".toList ∨ model = "DP".toList ∨ model = "3R".toList then
    .ok (T.map (fun _ => 3 * (831446261815324 / 100000000000000) / weight * 1))
  else if model = "Mg3Sb2".toList then .error .notImplementedError
  else .error .valueError

/-- a parser with the wrapper of `_registerInstr` -/
def runInstr {δ : Type} (readFile : List Char → Except PyErr (List Char)) (parser : List Char → Except PyErr δ)
    (text : List Char) : Except PyErr δ :=
  match instrText readFile text with
  | .error e => .error e
  | .ok t => parser t

/-- what `parse_TEfile` needs from elsewhere: `weight` is `Compound.from_string(sample, skip_unknown=True).weight_ave`,
`eval` the evaluation of the density expression without builtins -/
structure TEEnv (K : Type) where
  readFile : List Char → Except PyErr (List Char)
  weight : List Char → Except PyErr K
  eval : List Char → Except PyErr K
  float : List Char → Option K

/-- `[float(x) for x in …]` -/
def floats (float : List Char → Option K) : List (List Char) → Except PyErr (List K)
  | [] => .ok []
  | x :: xs => match float x with
    | none => .error .valueError
    | some v => match floats float xs with
      | .error e => .error e
      | .ok vs => .ok (v :: vs)

/-- `cpx.rsplit('@', maxsplit=1)` for a text with an '@' -/
def rsplitAt (cpx : List Char) : List Char × List Char :=
  (((cpx.reverse.dropWhile (· != '@')).drop 1).reverse, (cpx.reverse.takeWhile (· != '@')).reverse)

/-- the heat capacity, loader.py:1009-1024 -/
def parseCp (env : TEEnv K) (weight : K) (cp : Option (List Char)) (T : List K) : Except PyErr (List K) :=
  let cpx := strip (cp.getD "@Dulong-Petit".toList)
  if '@' ∈ cpx then
    match floats env.float ((Re.split (.plus (.cls Utils.isSep)) (rsplitAt cpx).1).filter (fun x => !x.isEmpty)) with
    | .error e => .error e
    | .ok _ => parseCpT weight (strip (rsplitAt cpx).2) T
  else
    match floats env.float (Utils.parseList (cp.getD [])) with
    | .error e => .error e
    | .ok c => if c.length ≠ T.length then .error .valueError else .ok c

/-- `INSTRMETA[instr][0](instr_file)` with `instr = Found[0]`, loader.py:971-990 -/
def runElectrical (env : TEEnv K) (zem cta : Option (List Char)) : Except PyErr (TRS K) :=
  match zem, cta with
  | some z, _ => runInstr env.readFile (parseZEM env.float) z
  | none, some c => runInstr env.readFile (parseCTA env.float) c
  | none, none => .error .indexError

/-- `parse_TEfile(filename, specify)`, loader.py:944-1032, from the section `entry` of the configuration (`none`: no such
section) to the columns and identifiers given to `TEdataset2`. -/
def parseTEfile (env : TEEnv K) (entry : Option (PyDict String (List Char))) (specify : Option (List (String × List Char))) :
    Except PyErr (List (List K) × List String) :=
  match entry with
  | none => .error .keyError
  | some entry =>
    let entry := match specify with
      | none => entry
      | some s => PyDict.update entry s
    match PyDict.get? entry "sample" with
    | none => .error .valueError
    | some sample => match env.weight sample with
      | .error e => .error e
      | .ok weight =>
        match PyDict.get? entry "ZEM", PyDict.get? entry "CTA" with
        | none, none => .error .valueError
        | some _, some _ => .error .valueError
        | zem, cta =>
          match runElectrical env zem cta with
          | .error e => .error e
          | .ok el =>
            match PyDict.get? entry "LFA" with
            | none => .error .valueError
            | some lfa =>
              match runInstr env.readFile (parseLFA env.float) lfa with
              | .error e => .error e
              | .ok th =>
                match PyDict.get? entry "density" with
                | none => .error .valueError
                | some dens => match env.eval dens with
                  | .error e => .error e
                  | .ok density =>
                    match parseCp env weight (PyDict.get? entry "Cp") th.T with
                    | .error e => .error e
                    | .ok cp =>
                      .ok ([el.T, el.R, el.S, th.T, th.A, List.zipWith (fun a c => a * density * c) th.A cp],
                        ["T", "R", "S", "T", "A", "K"])

end
end TEflow.Loader
