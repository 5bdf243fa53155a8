/-!
# Shared vocabulary of the model

Python exceptions as values and Python dictionaries (insertion ordered) as association lists.
-/

namespace TEflow

/-- The Python exceptions the modelled code can raise.  The message text is not modelled, except for
the list of names quoted in it where a property speaks about it (`valueErrorNaming`). -/
inductive PyErr where
  | typeError
  | valueError
  /-- a `ValueError` whose message quotes exactly these names -/
  | valueErrorNaming (names : List String)
  | keyError
  | indexError
  | zeroDivisionError
  | runtimeError
  | ioError
  | noSectionError
  | unboundLocalError
  | attributeError
  | notImplementedError
  | recursionError
  deriving DecidableEq, Repr

/-- A Python `dict` / `OrderedDict`: entries in insertion order.  Every dictionary the code can hold
has pairwise distinct keys (`PyDict.WF`). -/
abbrev PyDict (κ ν : Type) := List (κ × ν)

namespace PyDict

variable {κ ν : Type} [DecidableEq κ]

/-- `list(d.keys())` -/
def keys (d : PyDict κ ν) : List κ := d.map Prod.fst

/-- keys are pairwise distinct: true of every Python dictionary -/
def WF (d : PyDict κ ν) : Prop := (keys d).Nodup

instance (d : PyDict κ ν) : Decidable (WF d) := inferInstanceAs (Decidable (keys d).Nodup)

/-- `d.get(k)` / `d[k]` -/
def get? : PyDict κ ν → κ → Option ν
  | [], _ => none
  | (k', v) :: d, k => if k' = k then some v else get? d k

/-- `k in d` -/
def has (d : PyDict κ ν) (k : κ) : Bool := (get? d k).isSome

/-- `d[k] = v`: overwrites in place, a new key goes last -/
def set : PyDict κ ν → κ → ν → PyDict κ ν
  | [], k, v => [(k, v)]
  | (k', v') :: d, k, v => if k' = k then (k', v) :: d else (k', v') :: set d k v

/-- the dictionary without key `k` (`del d[k]`, `d.pop(k)`) -/
def erase : PyDict κ ν → κ → PyDict κ ν
  | [], _ => []
  | (k', v') :: d, k => if k' = k then d else (k', v') :: erase d k

/-- `d.move_to_end(k)`; `KeyError` if absent -/
def moveToEnd (d : PyDict κ ν) (k : κ) : Except PyErr (PyDict κ ν) :=
  match get? d k with
  | none => .error .keyError
  | some v => .ok (erase d k ++ [(k, v)])

/-- `dict(pairs)` / `d.update(pairs)`: assign one after the other -/
def update (d : PyDict κ ν) (ps : List (κ × ν)) : PyDict κ ν :=
  ps.foldl (fun d p => set d p.1 p.2) d

/-- `dict(pairs)` -/
def ofPairs (ps : List (κ × ν)) : PyDict κ ν := update [] ps

end PyDict
end TEflow
