import Mathlib.Data.Real.Basic
import Mathlib.Logic.Function.Basic
import Verif.Model.Basic

/-! # `Variable`, `Parameters` and the fitting loop of `kappa.py`

Objects are numbered in the order of their creation; the class attribute `__instances` maps tags to objects.  Constraints are
arbitrary total functions of the values they are given (a constraint that raises an error or has the wrong number of arguments
is not modelled). -/

namespace TEflow.KappaVar

noncomputable section

/-- a tag -/
abbrev Tag := List Char

/-- a key of a parameter set: a name given by the user, or `__<tag>_<i>`, which the constructor of `Variable` makes for its
private parameter set, kappa.py:84 (only ever compared with keys of the same private set) -/
inductive Key where
  | name (s : List Char)
  | dep (tag : Tag) (i : Nat)
deriving DecidableEq

/-- a `Variable` object after its bound check, kappa.py:72-84 -/
structure Var where
  value : ℝ
  lower : ℝ
  upper : ℝ
  scale : ℝ
  /-- `_subscribers`: numbers of parameter sets, and keys -/
  subs : List (Nat × Key)
  /-- `_compute`: `none` when the attribute does not exist -/
  compute : Option (Option (List ℝ → ℝ))
  /-- `_depends`: `none` when the attribute does not exist -/
  deps : Option Nat

/-- the objects of the program -/
structure St where
  /-- `Variable.__instances`, kappa.py:36 -/
  reg : Tag → Option Nat
  nobj : Nat
  /-- `none`: an object without attributes (made by `__new__` only) -/
  obj : Nat → Option Var
  npar : Nat
  /-- the `Parameters` objects -/
  par : Nat → PyDict Key ℝ

/-- nothing has been made yet -/
def St.init : St := ⟨fun _ => none, 0, fun _ => none, 0, fun _ => []⟩

/-- the attributes of an object -/
def attrs (s : St) (i : Nat) : Except PyErr Var :=
  match s.obj i with
  | some o => .ok o
  | none => .error .attributeError

/-- `value` (reading), kappa.py:153-158 -/
def value (s : St) (i : Nat) : Except PyErr ℝ :=
  match s.obj i with
  | none => .error .attributeError
  | some o =>
    match o.compute with
    | none => .error .attributeError
    | some none => .ok o.value
    | some (some f) =>
      match o.deps with
      | none => .error .attributeError
      | some p => .ok (f ((s.par p).map Prod.snd))

/-- `sub[key] = x` -/
def store (s : St) (p : Nat) (k : Key) (x : ℝ) : St := { s with par := Function.update s.par p (PyDict.set (s.par p) k x) }

/-- the loop of `sync`, kappa.py:185-186: the value is read again for every subscriber -/
def syncLoop (s : St) (i : Nat) (scale : ℝ) : List (Nat × Key) → Except PyErr Unit × St
  | [] => (.ok (), s)
  | (p, k) :: rest =>
    match value s i with
    | .error e => (.error e, s)
    | .ok v => syncLoop (store s p k (v * scale)) i scale rest

/-- `sync`, kappa.py:181-186 -/
def sync (s : St) (i : Nat) : Except PyErr Unit × St :=
  match s.obj i with
  | none => (.error .attributeError, s)
  | some o => syncLoop s i o.scale o.subs

/-- replaces an object -/
def putObj (s : St) (i : Nat) (o : Var) : St := { s with obj := Function.update s.obj i (some o) }

/-- `value` (assigning), kappa.py:159-166 -/
def setValue (s : St) (i : Nat) (x : ℝ) : Except PyErr Unit × St :=
  match s.obj i with
  | none => (.error .attributeError, s)
  | some o =>
    if o.lower ≤ x ∧ x ≤ o.upper then sync (putObj s i { o with value := x }) i
    else (.error .valueError, s)

/-- an argument of `Parameters(...)` -/
inductive Arg where
  | const (x : ℝ)
  | var (i : Nat)

/-- the loop of `Parameters.__init__` for the new set `p`, kappa.py:199-202; `acc` are the values found so far -/
def paramsLoop (p : Nat) : List (Key × Arg) → PyDict Key ℝ → St → Except PyErr (PyDict Key ℝ) × St
  | [], acc, s => (.ok acc, s)
  | (k, .const x) :: rest, acc, s => paramsLoop p rest (acc ++ [(k, x)]) s
  | (k, .var i) :: rest, acc, s =>
    match s.obj i with
    | none => (.error .attributeError, s)
    | some o =>
      match value (putObj s i { o with subs := o.subs ++ [(p, k)] }) i with
      | .error e => (.error e, putObj s i { o with subs := o.subs ++ [(p, k)] })
      | .ok v => paramsLoop p rest (acc ++ [(k, v * o.scale)]) (putObj s i { o with subs := o.subs ++ [(p, k)] })

/-- `Parameters(**args)`, kappa.py:198-203; repeated keywords are an error of the call itself -/
def newParams (s : St) (args : List (Key × Arg)) : Except PyErr Nat × St :=
  if (args.map Prod.fst).Nodup then
    match paramsLoop s.npar args [] { s with npar := s.npar + 1 } with
    | (.error e, s1) => (.error e, s1)
    | (.ok d, s1) => (.ok s.npar, { s1 with par := Function.update s1.par s.npar d })
  else (.error .typeError, s)

/-- what is passed as `constraint` -/
inductive Constraint where
  | none
  | fn (f : List ℝ → ℝ)
  | notCallable

/-- the arguments of `Variable(tag, ...)`, kappa.py:43-44 -/
structure Args where
  initial : ℝ := 1
  lower : ℝ := 0
  upper : ℝ := 1000
  scale : ℝ := 1
  constraint : Constraint := .none
  depends : List Arg := []

/-- the keyword arguments for the private parameter set, kappa.py:84 -/
def depArgs (tag : Tag) (deps : List Arg) : List (Key × Arg) := deps.mapIdx fun i a => (.dep tag i, a)

/-- the last lines of `__init__`, kappa.py:83-84 -/
def finishInit (s : St) (i : Nat) (o : Var) (c : Option (List ℝ → ℝ)) (tag : Tag) (deps : List Arg) : Except PyErr Nat × St :=
  match newParams (putObj s i { o with compute := some c }) (depArgs tag deps) with
  | (.error e, s2) => (.error e, s2)
  | (.ok p, s2) =>
    match s2.obj i with
    | none => (.ok i, s2)
    | some o2 => (.ok i, putObj s2 i { o2 with deps := some p })

/-- `__init__` for object `i`, kappa.py:70-84 -/
def initVar (s : St) (i : Nat) (tag : Tag) (a : Args) : Except PyErr Nat × St :=
  match s.obj i with
  | some _ => (.ok i, s)
  | none =>
    if a.lower ≤ a.initial ∧ a.initial ≤ a.upper then
      let o : Var := ⟨a.initial, a.lower, a.upper, a.scale, [], none, none⟩
      match a.constraint with
      | .notCallable => (.error .valueError, putObj s i o)
      | .none => finishInit s i o none tag a.depends
      | .fn f => finishInit s i o (some f) tag a.depends
    else (.error .valueError, s)

/-- `Variable(tag, ...)`: `__new__` and `__init__`, kappa.py:37-84 -/
def construct (s : St) (tag : Tag) (a : Args) : Except PyErr Nat × St :=
  match s.reg tag with
  | some i => initVar s i tag a
  | none => initVar { s with reg := Function.update s.reg tag (some s.nobj), nobj := s.nobj + 1 } s.nobj tag a

/-- assigning the parameter values one after another, kappa.py:260-261 -/
def assignLoop : List (Nat × ℝ) → St → Except PyErr Unit × St
  | [], s => (.ok (), s)
  | (i, x) :: rest, s =>
    match setValue s i x with
    | (.error e, s1) => (.error e, s1)
    | (.ok _, s1) => assignLoop rest s1

/-- refreshing the constrained variables, kappa.py:262-263 -/
def refreshLoop : List Nat → St → Except PyErr Unit × St
  | [], s => (.ok (), s)
  | i :: rest, s =>
    match sync s i with
    | (.error e, s1) => (.error e, s1)
    | (.ok _, s1) => refreshLoop rest s1

/-- `_cal` up to the evaluation of the model, kappa.py:258-263 -/
def cal (vars ders : List Nat) (args : List ℝ) (s : St) : Except PyErr Unit × St :=
  if args.length ≠ vars.length then (.error .valueError, s)
  else
    match assignLoop (vars.zip args) s with
    | (.error e, s1) => (.error e, s1)
    | (.ok _, s1) => refreshLoop ders s1

/-- `constrained`, kappa.py:91-96 -/
def constrained (s : St) (i : Nat) : Except PyErr Bool :=
  match s.obj i with
  | none => .error .attributeError
  | some o =>
    match o.compute with
    | none => .error .attributeError
    | some c => .ok c.isSome

/-- the list comprehensions of `fit`, kappa.py:281-282 -/
def partitionVars (s : St) : List Nat → Except PyErr (List Nat × List Nat)
  | [] => .ok ([], [])
  | i :: rest => do
    let c ← constrained s i
    let (v, d) ← partitionVars s rest
    return if c then (v, i :: d) else (i :: v, d)

end

end TEflow.KappaVar
