import Verif.Model.Basic

/-! # Model of dot access to dictionaries (`AttrDict`)

/repo/src/teflow/utils.py:60-82.  Python looks an attribute up in this order: properties of the class, attributes of the instance (its
`__dict__`, where every assignment with a dot goes), other attributes of the class (methods), and only then `__getattr__`, which the class
defines as the item. -/

namespace TEflow.DotAccess

variable {ν : Type}

/-- names of the attributes of a class: properties (which cannot be assigned) and all others -/
structure Cls where
  props : List String
  methods : List String

/-- a dictionary object: its entries and the `__dict__` of the instance -/
structure Obj (ν : Type) where
  entries : PyDict String ν
  slots : PyDict String ν

/-- what an attribute access gives: something of the class, or a value -/
inductive Got (ν : Type) where
  | ofClass
  | value (v : ν)

/-- `d[key]` -/
def getItem (d : Obj ν) (key : String) : Except PyErr ν :=
  match PyDict.get? d.entries key with
  | some v => .ok v
  | none => .error .keyError

/-- `AttrDict.__getattr__`, utils.py:80-82 -/
def dunderGetattr (d : Obj ν) (name : String) : Except PyErr ν := getItem d name

/-- `d.name`, with `__getattr__` of utils.py:80-82 as the last resort -/
def getAttr (c : Cls) (d : Obj ν) (name : String) : Except PyErr (Got ν) :=
  if name ∈ c.props then .ok .ofClass
  else match PyDict.get? d.slots name with
    | some v => .ok (.value v)
    | none =>
      if name ∈ c.methods then .ok .ofClass
      else match dunderGetattr d name with
        | .ok v => .ok (.value v)
        | .error e => .error e

/-- `hasattr(d, name)`: only an `AttributeError` counts as "no", other exceptions pass -/
def hasAttr (c : Cls) (d : Obj ν) (name : String) : Except PyErr Bool :=
  match getAttr c d name with
  | .ok _ => .ok true
  | .error .attributeError => .ok false
  | .error e => .error e

/-- what a program does to a dictionary object: `d[k] = v`, `del d[k]`, `d.k = v`, `del d.k` (failing operations leave the object) -/
inductive Op (ν : Type) where
  | setItem (key : String) (v : ν)
  | delItem (key : String)
  | setAttr (name : String) (v : ν)
  | delAttr (name : String)

/-- one operation; utils.py:60-82 define no `__setattr__`, so that an assignment with a dot goes to the instance -/
def step (c : Cls) (d : Obj ν) : Op ν → Obj ν
  | .setItem k v => { d with entries := PyDict.set d.entries k v }
  | .delItem k => { d with entries := PyDict.erase d.entries k }
  | .setAttr n v => if n ∈ c.props then d else { d with slots := PyDict.set d.slots n v }
  | .delAttr n => if n ∈ c.props then d else { d with slots := PyDict.erase d.slots n }

/-- a history -/
def run (c : Cls) (d : Obj ν) (ops : List (Op ν)) : Obj ν := ops.foldl (step c) d

/-- the public names of `OrderedDict` -/
def orderedDictNames : List String :=
  ["clear", "copy", "fromkeys", "get", "items", "keys", "move_to_end", "pop", "popitem", "setdefault", "update", "values"]

/-- the class `Compound`, loader.py:324-427 (names that begin with an underscore are left out) -/
def compoundCls : Cls where
  props := ["natom", "weights", "weight_ave"]
  methods := ["retain", "replace", "to_string", "from_string"] ++ orderedDictNames

/-- the class `Alloy`, loader.py:430-512 -/
def alloyCls : Cls where
  props := []
  methods := ["retain", "all_sites", "to_string", "from_string", "from_compounds"] ++ orderedDictNames

end TEflow.DotAccess
