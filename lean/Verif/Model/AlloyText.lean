import Verif.Model.Compound

/-! # Model of `Alloy.to_string` and `Alloy.from_string`, /repo/src/teflow/loader.py:449-486 -/

namespace TEflow.Loader

open PyDict Re

/-- `.` (any character but a newline) -/
def anyChar : Re := .cls (· != '\n')

/-- `\((.+?)\)` in the parts: parenthesis, group 1, parenthesis, loader.py:467 -/
def groupParts : List Re := [Re.chr '(', Re.lazyPlus anyChar, Re.chr ')']

/-- `\-(\(.+?\))` in the parts: minus, group 1 (three parts), loader.py:464 -/
def originParts : List Re := Re.chr '-' :: groupParts

/-- `re.sub(r'\-(\(.+?\))', r'_\1', …)` from a position on, loader.py:464.  The first argument bounds the number of
steps and is started with the length of the text. -/
def originSubGo : Nat → Pos → List Char
  | 0, s => s.rest
  | n + 1, s => match s.rest with
    | [] => []
    | c :: cs =>
      match (Re.runParts originParts s).head? with
      | some bs => '_' :: Re.between ((bs.head?).getD s) ((bs.getLast?).getD s) ++ originSubGo n ((bs.getLast?).getD s)
      | none => c :: originSubGo n ⟨c :: s.before, cs⟩

/-- `re.sub(r'\-(\(.+?\))', r'_\1', formula)`, loader.py:464 -/
def originSub (formula : List Char) : List Char := originSubGo formula.length ⟨[], formula⟩

/-- `re.search(r'\((.+?)\)', sf)`: `m.group(0)` and `m.group(1)`, loader.py:467-469 -/
def searchGroup (sf : List Char) : Option (List Char × List Char) :=
  (Re.findPartsGo groupParts sf.length ⟨[], sf⟩).head?.map (fun m =>
    match m.2 with
    | [b0, b1, b2] => (Re.between m.1 b2, Re.between b0 b1)
    | _ => ([], []))

/-- `text.replace(old, new)` for a non-empty `old`: every occurrence, from left to right, without overlaps.  The first
argument bounds the number of steps and is started with the length of the text. -/
def replaceGo (old new : List Char) : Nat → List Char → List Char
  | 0, t => t
  | _ + 1, [] => []
  | n + 1, c :: cs =>
    if old.isPrefixOf (c :: cs) then new ++ replaceGo old new n ((c :: cs).drop old.length)
    else c :: replaceGo old new n cs

/-- `text.replace(old, new)`, used in loader.py:468 -/
def replaceAll (old new text : List Char) : List Char := replaceGo old new text.length text

/-- `ALLOYSITE = 'Jalloyed'`, loader.py:463 -/
def alloySite : List Char := "Jalloyed".toList

/-- `ALLOYSITE + 'x'*alleyed_idx`, loader.py:468 -/
def groupLabel (idx : Nat) : List Char := alloySite ++ List.replicate idx 'x'

/-- the loop `while m := re.search(…)`, loader.py:465-470: the rewritten text and `alloyed_sites`.  The first argument
bounds the number of rounds; it is started with the number of opening parentheses, which suffices (`C116_loop`). -/
def pullGroups : Nat → Nat → List Char → List (List Char) → List Char × List (List Char)
  | 0, _, sf, acc => (sf, acc)
  | n + 1, idx, sf, acc => match searchGroup sf with
    | none => (sf, acc)
    | some (w, g) => pullGroups n (idx + 1) (replaceAll w (groupLabel idx) sf) (acc ++ [g])

/-- lines 463-470 together -/
def splitGroups (formula : List Char) : List Char × List (List Char) :=
  pullGroups ((originSub formula).count '(') 0 (originSub formula) []

variable {K : Type} [Field K] [LinearOrder K] [FloorRing K]

/-- `if m := re.match(rf'{ALLOYSITE}(x*)', key): key = alloyed_sites[len(m.group(1))]`, loader.py:476-478 -/
def siteKey (groups : List (List Char)) (key : List Char) : Except PyErr (List Char) :=
  if alloySite.isPrefixOf key then
    match groups[((key.drop alloySite.length).takeWhile (· == 'x')).length]? with
    | some g => .ok g
    | none => .error .indexError
  else .ok key

/-- the loop over the sites, loader.py:473-485: the compounds and the numbers of atoms -/
def readSites (known : List Char → Bool) (skip raise : Bool) (groups : List (List Char)) :
    List (List Char × K) → Except PyErr (List (PyDict (List Char) K × K))
  | [] => .ok []
  | (key, val) :: r =>
    match siteKey groups key with
    | .error e => .error e
    | .ok key' => match fromString known skip raise key' with
      | .error e => .error e
      | .ok comp =>
        if 1 < comp.length ∧ ∀ e ∈ comp, |e.2 - 1| < 1 / 100000000 then .error .valueError   -- 481-483
        else match readSites known skip raise groups r with
          | .error e => .error e
          | .ok rest => .ok ((comp, val * natom comp) :: rest)

/-- `Alloy.from_string`, loader.py:461-486 -/
def alloyFromString (known : List Char → Bool) (names : Option (List (List Char))) (skip raise : Bool)
    (formula : List Char) : Except PyErr (PyDict (List Char) (PyDict (List Char) K)) :=
  match fromString known false false (splitGroups formula).1 with                     -- 471
  | .error e => .error e
  | .ok pseudo => match readSites known skip raise (splitGroups formula).2 pseudo with
    | .error e => .error e
    | .ok sites => fromCompounds (sites.map (fun s => some s.1)) names (some (sites.map (fun s => some s.2)))

/-- the text of one site without its amount, loader.py:455-457 -/
def siteText (fmt : K → List Char) (style : Style) (omitOne : Bool) (comp : PyDict (List Char) K) : List Char :=
  if comp.length ≠ 1 then '(' :: toText fmt style omitOne comp ++ [')'] else toText fmt style omitOne comp

/-- `Alloy.to_string`, loader.py:452-459 (an error of `all_sites` is passed on) -/
def alloyToText (fmt : K → List Char) (style : Style) (omitOne : Bool) (sites : List (List Char × SiteVal K)) :
    Except PyErr (List Char) :=
  match allSites true none sites with
  | (_, .error e) => .error e
  | (out, .ok _) =>
    .ok (toText fmt style omitOne (ofPairs (out.map (fun s => (siteText fmt style omitOne s.2.1, s.2.2)))))

end TEflow.Loader
