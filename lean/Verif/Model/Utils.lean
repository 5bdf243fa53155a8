import Mathlib.Data.List.Sort
import Mathlib.Algebra.Order.Floor.Ring
import Verif.Model.Basic
import Verif.Model.Re

/-! # Model of `/repo/src/teflow/utils.py` -/

namespace TEflow.Utils

open PyDict

section AttrDict
variable {κ ν : Type} [DecidableEq κ]

/-- The argument `keys` of `AttrDict.retain`: what the two `isinstance` tests (utils.py:121, 127) see and
the elements an iteration yields.  (Unhashable elements are not modelled.) -/
inductive KeysArg (κ : Type) where
  | nonIterable
  | iterable (elems : List κ) (isSequence : Bool)

/-- utils.py:124, the dict comprehension `{key: self.pop(key) for key in order}`;
returns the mutated `self` together with the result. -/
def popAll : PyDict κ ν → PyDict κ ν → List κ → PyDict κ ν × Except PyErr (PyDict κ ν)
  | d, popped, [] => (d, .ok popped)
  | d, popped, k :: ks => match get? d k with
    | none => (d, .error .keyError)
    | some v => popAll (erase d k) (PyDict.set popped k v) ks

/-- utils.py:131, `[(indices[key], key) for key in self]` -/
def numberOf (indices : PyDict κ Nat) : List κ → Except PyErr (List (Nat × κ))
  | [] => .ok []
  | k :: ks => match get? indices k with
    | none => .error .keyError
    | some i => match numberOf indices ks with
      | .error e => .error e
      | .ok r => .ok ((i, k) :: r)

/-- `sorted` on `(index, key)` tuples; the indices are pairwise different so that keys are never compared
(shown inside the proof of `C02_retain_match_order`). -/
def sortNum (l : List (Nat × κ)) : List (Nat × κ) := l.insertionSort (fun a b => a.1 ≤ b.1)

/-- utils.py:133-140, the scan that collects the entries to be moved; `m` is `num_ordered`. -/
def scan (sorted : List (Nat × κ)) : Nat → List (Nat × κ) → List (Nat × κ) → Except PyErr (List (Nat × κ))
  | _, toMove, [] => .ok toMove
  | m, toMove, (num, key) :: rest => match sorted[m]? with
    | none => .error .indexError
    | some s => if num = s.1 then scan sorted (m + 1) toMove rest
                else scan sorted m (toMove ++ [(num, key)]) rest

/-- utils.py:142-143, `for _, key in …: self.move_to_end(key)` -/
def moveAll : PyDict κ ν → List κ → PyDict κ ν × Except PyErr Unit
  | d, [] => (d, .ok ())
  | d, k :: ks => match moveToEnd d k with
    | .error e => (d, .error e)
    | .ok d' => moveAll d' ks

/-- `AttrDict.retain`, utils.py:84-145.  `setOrder` is the (arbitrary) iteration order of a Python set.
Returns the dictionary after the call and the outcome. -/
def retain (setOrder : List κ → List κ) (d : PyDict κ ν) (keysArg : KeysArg κ) (matchOrder : Bool) :
    PyDict κ ν × Except PyErr (PyDict κ ν) :=
  match keysArg with
  | .nonIterable => (d, .error .typeError)                                  -- 121-122
  | .iterable ks isSeq =>
    match popAll d [] (setOrder ((PyDict.keys d).filter (fun k => k ∉ ks))) with  -- 124
    | (d1, .error e) => (d1, .error e)
    | (d1, .ok popped) =>
      if matchOrder then                                                     -- 126
        if !isSeq then (d1, .error .typeError)                               -- 127-129
        else
          let indices := ofPairs (ks.zipIdx)                                 -- 130
          match numberOf indices (PyDict.keys d1) with                       -- 131
          | .error e => (d1, .error e)
          | .ok number =>
            match scan (sortNum number) 0 [] number with                     -- 133-140
            | .error e => (d1, .error e)
            | .ok toMove =>
              match moveAll d1 ((sortNum toMove).map Prod.snd) with          -- 142-143
              | (d2, .error e) => (d2, .error e)
              | (d2, .ok _) => (d2, .ok popped)                              -- 145
      else (d1, .ok popped)

end AttrDict

section ListDict
variable {κ ν : Type} [DecidableEq κ]

/-- loop of `ListDict.append`, utils.py:169-170: the columns before the first missing key are already
mutated when `KeyError` is raised.  (`obj` is not `self`, whose lists would alias.) -/
def appendGo (obj : PyDict κ ν) : List (κ × List ν) → List (κ × List ν) × Except PyErr Unit
  | [] => ([], .ok ())
  | (k, l) :: rest => match get? obj k with
    | none => ((k, l) :: rest, .error .keyError)
    | some v => let r := appendGo obj rest; ((k, l ++ [v]) :: r.1, r.2)

/-- `ListDict.append`, utils.py:154-172; `none` stands for an object that is not a dictionary -/
def append (d : PyDict κ (List ν)) (obj : Option (PyDict κ ν)) : PyDict κ (List ν) × Except PyErr Unit :=
  match obj with
  | none => (d, .error .valueError)
  | some o => appendGo o d

/-- loop of `ListDict.extend`, utils.py:189-190 -/
def extendGo (obj : PyDict κ (List ν)) : List (κ × List ν) → List (κ × List ν) × Except PyErr Unit
  | [] => ([], .ok ())
  | (k, l) :: rest => match get? obj k with
    | none => ((k, l) :: rest, .error .keyError)
    | some v => let r := extendGo obj rest; ((k, l ++ v) :: r.1, r.2)

/-- `ListDict.extend`, utils.py:174-192 -/
def extend (d : PyDict κ (List ν)) (obj : Option (PyDict κ (List ν))) :
    PyDict κ (List ν) × Except PyErr Unit :=
  match obj with
  | none => (d, .error .valueError)
  | some o => extendGo o d

/-- `obj[key]` -/
def item (obj : PyDict κ ν) (k : κ) : Except PyErr ν :=
  match get? obj k with
  | none => .error .keyError
  | some v => .ok v

/-- `[obj[key] for obj in objs]`, utils.py:234 -/
def column (k : κ) : List (PyDict κ ν) → Except PyErr (List ν)
  | [] => .ok []
  | o :: os => match item o k with
    | .error e => .error e
    | .ok v => match column k os with
      | .error e => .error e
      | .ok vs => .ok (v :: vs)

/-- `[(key, …) for key in keys]`, utils.py:234 -/
def columns (objs : List (PyDict κ ν)) : List κ → Except PyErr (List (κ × List ν))
  | [] => .ok []
  | k :: ks => match column k objs with
    | .error e => .error e
    | .ok c => match columns objs ks with
      | .error e => .error e
      | .ok cs => .ok ((k, c) :: cs)

/-- utils.py:229-230 / 272-273: default `keys` -/
def keysOr (objs : List (PyDict κ ν)) (keys : Option (List κ)) : Except PyErr (List κ) :=
  match keys with
  | some ks => .ok ks
  | none => match objs with
    | [] => .error .indexError
    | o :: _ => .ok (PyDict.keys o)

/-- the check `all(isinstance(obj, dict) …)`, utils.py:227 / 270; `none` is a non-dictionary -/
def allDicts : List (Option (PyDict κ ν)) → Option (List (PyDict κ ν))
  | [] => some []
  | none :: _ => none
  | some o :: os => (allDicts os).map (o :: ·)

/-- `ListDict.merge`, utils.py:195-235 (the `toarray` conversion to numpy is not modelled) -/
def merge (objs : List (Option (PyDict κ ν))) (keys : Option (List κ)) :
    Except PyErr (PyDict κ (List ν)) :=
  match allDicts objs with
  | none => .error .valueError
  | some os => match keysOr os keys with
    | .error e => .error e
    | .ok ks => match columns os ks with
      | .error e => .error e
      | .ok rst => .ok (ofPairs rst)

/-- `[(key, sum((obj[key] for obj in objs), start)) for key in keys]`, utils.py:274 -/
def sums [Add ν] (start : ν) (objs : List (PyDict κ ν)) : List κ → Except PyErr (List (κ × ν))
  | [] => .ok []
  | k :: ks => match column k objs with
    | .error e => .error e
    | .ok c => match sums start objs ks with
      | .error e => .error e
      | .ok cs => .ok ((k, c.foldl (· + ·) start) :: cs)

/-- `ListDict.sum`, utils.py:238-275 -/
def sum [Add ν] (objs : List (Option (PyDict κ ν))) (start : ν) (keys : Option (List κ)) :
    Except PyErr (PyDict κ ν) :=
  match allDicts objs with
  | none => .error .valueError
  | some os => match keysOr os keys with
    | .error e => .error e
    | .ok ks => match sums start os ks with
      | .error e => .error e
      | .ok rst => .ok (ofPairs rst)

end ListDict

section Text

/-- `[\s,]` -/
def isSep (c : Char) : Bool := pySpace c || c == ','

/-- the pattern `[\s,]+`, utils.py:367 -/
def sepRe : Re := .plus (.cls isSep)

/-- `CfgParser.parse_list`, utils.py:366-367 -/
def parseList (text : List Char) : List (List Char) :=
  (Re.split sepRe text).filter (fun t => !t.isEmpty)

/-- `CfgParser.parse_list_float` / `parse_list_int`, utils.py:370-375; `conv` is `float` or `int` -/
def parseListWith {α : Type} (conv : List Char → Except PyErr α) (text : List Char) :
    Except PyErr (List α) :=
  ((Re.split sepRe text).filter (fun t => !t.isEmpty)).mapM conv

/-- the pattern `(?<!:)[\s,]+(?!:)`, utils.py:380 -/
def seqSepRe : Re := .seq (.notBehind (· == ':')) (.seq (.plus (.cls isSep)) (.notAhead (.chr ':')))

/-- the pattern `[:\s]+`, utils.py:381 -/
def fieldRe : Re := .plus (.cls (fun c => c == ':' || pySpace c))

variable {K : Type} [Field K] [LinearOrder K] [FloorRing K]

/-- the `while start < end` loop of utils.py:388-390 with `end` already increased;
`fuel` bounds the number of rounds (see `rangeUp`). -/
def rangeUpGo : Nat → K → K → List K
  | 0, _, _ => []
  | n + 1, start, stop => if start < stop then start :: rangeUpGo n (start + 1) stop else []

/-- `a:b`, utils.py:386-390.  The loop runs at most `⌈end - start⌉` times in exact arithmetic, so the
fuel is never exhausted (theorem `rangeUpGo_fuel`). -/
def rangeUp (start stop : K) : List K :=
  let stop' := stop + 1 / 10000
  rangeUpGo (⌈stop' - start⌉.toNat + 1) start stop'

/-- `for _ in range(n): result.append(start); start += step`, utils.py:396-398 -/
def rangeBy : Nat → K → K → List K
  | 0, _, _ => []
  | n + 1, start, step => start :: rangeBy n (start + step) step

/-- Python's `int(x)`: truncation towards zero -/
def pyInt (x : K) : Int := if 0 ≤ x then ⌊x⌋ else ⌈x⌉

/-- `a:s:b`, utils.py:392-398 -/
def rangeStep (start step stop : K) : Except PyErr (List K) :=
  if step = 0 then .error .zeroDivisionError
  else
    let num := (stop - start) / step
    if num < 0 then .ok []
    else .ok (rangeBy (pyInt (num + 1 / 10000) + 1).toNat start step)

/-- one round of the loop utils.py:380-400; `float` is Python's `float(text)` -/
def parsePart (float : List Char → Except PyErr K) (part : List Char) : Except PyErr (List K) :=
  match (Re.split fieldRe part).filter (fun t => !t.isEmpty) with
  | [_] => match float part with
    | .error e => .error e
    | .ok x => .ok [x]
  | [a, b] => match float a with
    | .error e => .error e
    | .ok start => match float b with
      | .error e => .error e
      | .ok stop => .ok (rangeUp start stop)
  | [a, s, b] => match float a with
    | .error e => .error e
    | .ok start => match float s with
      | .error e => .error e
      | .ok step => match float b with
        | .error e => .error e
        | .ok stop => rangeStep start step stop
  | _ => .error .valueError

/-- the loop over the parts -/
def parseParts (float : List Char → Except PyErr K) : List (List Char) → Except PyErr (List K)
  | [] => .ok []
  | p :: ps => match parsePart float p with
    | .error e => .error e
    | .ok xs => match parseParts float ps with
      | .error e => .error e
      | .ok ys => .ok (xs ++ ys)

/-- `CfgParser.parse_seq`, utils.py:378-401 -/
def parseSeq (float : List Char → Except PyErr K) (text : List Char) : Except PyErr (List K) :=
  parseParts float ((Re.split seqSepRe text).filter (fun t => !t.isEmpty))

end Text

section PMatch

/-- `sect.split('.', 1)[1]`: the text after the first dot.  In the code it is only used on texts containing
a dot. -/
def afterFirstDot : List Char → List Char
  | [] => []
  | c :: cs => if c = '.' then cs else afterFirstDot cs

/-- `CfgParser.pmatch`, utils.py:340-352; `sections` is `self.items()` in file order (DEFAULT included) -/
def pmatch {α : Type} (sections : List (List Char × α)) (name : List Char) :
    Except PyErr (α × List Char) :=
  match sections with
  | [] => .error .noSectionError
  | (sect, content) :: rest =>
    if (name ++ ['.']).isPrefixOf sect then .ok (content, afterFirstDot sect)
    else if sect = name then .ok (content, sect)
    else pmatch rest name

end PMatch

section Exec
variable {ν : Type}

/-- `ExecWrapper` instance: stored required and optional arguments; `none` is `UNSET` (utils.py:426-429).
`update`/`execute` could be handed the `UNSET` object itself by a caller; the model allows it (`none`). -/
structure Exec (ν : Type) where
  args : PyDict String (Option ν)
  opts : PyDict String (Option ν)

/-- `ExecWrapper.__init__`, utils.py:426-429 -/
def Exec.init (args opts : List String) : Exec ν :=
  ⟨ofPairs (args.map (·, none)), ofPairs (opts.map (·, none))⟩

/-- one round of the loop of `update`, utils.py:441-445 -/
def Exec.update1 (w : Exec ν) (kv : String × Option ν) : Exec ν :=
  if has w.args kv.1 then { w with args := PyDict.set w.args kv.1 kv.2 }
  else if has w.opts kv.1 then { w with opts := PyDict.set w.opts kv.1 kv.2 }
  else w

/-- `ExecWrapper.update`, utils.py:431-445 -/
def Exec.update (w : Exec ν) (kwargs : PyDict String (Option ν)) : Exec ν := kwargs.foldl Exec.update1 w

/-- the call the wrapped object receives, or the error before it: utils.py:471-478 -/
def Exec.callArgs (w : Exec ν) (kwargs : PyDict String (Option ν)) :
    Except PyErr (PyDict String (Option ν)) :=
  let argsTmp := kwargs.filter (fun kv => has w.args kv.1)                                -- 471
  let arguments := PyDict.update w.args argsTmp                                           -- 472
  let unset := (arguments.filter (fun kv => kv.2.isNone)).map Prod.fst                    -- 473
  if unset ≠ [] then .error (.valueErrorNaming unset)                                     -- 474-476
  else
    let a1 := PyDict.update arguments (w.opts.filter (fun kv => kv.2.isSome))             -- 477
    let a2 := PyDict.update a1 (kwargs.filter (fun kv => has w.opts kv.1))                -- 478
    .ok a2

/-- `ExecWrapper.execute`, utils.py:447-482.  `obj` is the wrapped callable, any exception of which is
turned into `RuntimeError`.  The instance is returned as well: nothing in the body assigns to it. -/
def Exec.execute {ρ : Type} (w : Exec ν) (obj : PyDict String (Option ν) → Except PyErr ρ)
    (kwargs : PyDict String (Option ν)) : Exec ν × Except PyErr ρ :=
  match w.callArgs kwargs with
  | .error e => (w, .error e)
  | .ok a => match obj a with
    | .error _ => (w, .error .runtimeError)
    | .ok r => (w, .ok r)

end Exec

section Logger

/-- a log handler: a fresh identity, and what it writes to (`none` = console, `some f` = file `f`) -/
structure Handler where
  uid : Nat
  target : Option String
  deriving DecidableEq, Repr

/-- `_handlers` (utils.py:25) and the handler lists of the loggers; `next` is a source of fresh objects -/
structure LogState where
  registry : PyDict (String × String) Handler
  loggers : PyDict String (List Handler)
  next : Nat

/-- the handlers of a logger -/
def LogState.handlers (s : LogState) (pkg : String) : List Handler := (get? s.loggers pkg).getD []

/-- utils.py:38-45 / 47-54: replace the handler registered under `token` -/
def LogState.install (s : LogState) (pkg token : String) (target : Option String) : LogState :=
  let hs := s.handlers pkg
  let hs1 := match get? s.registry (pkg, token) with
    | some h => hs.erase h
    | none => hs
  let h : Handler := ⟨s.next, target⟩
  { registry := PyDict.set s.registry (pkg, token) h
    loggers := PyDict.set s.loggers pkg (hs1 ++ [h])
    next := s.next + 1 }

/-- one call of `get_root_logger`, utils.py:26-57 (formatters and level are not modelled; `pkg` is the
resolved package name) -/
structure LogCall where
  pkg : String
  stdout : Bool
  filename : Option String

def LogState.call (s : LogState) (c : LogCall) : LogState :=
  let s1 := if c.stdout then s.install c.pkg "console" none else s
  match c.filename with
  | none => s1
  | some f => s1.install c.pkg f (some f)

/-- the state at import time -/
def LogState.init : LogState := ⟨[], [], 0⟩

end Logger

end TEflow.Utils
