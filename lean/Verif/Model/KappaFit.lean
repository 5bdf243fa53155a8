import Verif.Model.KappaVar

/-! # Model of `BaseKappaModel.fit`, /repo/src/teflow/kappa.py:266-292

`scipy.optimize.curve_fit` is not modelled: it is any search that puts questions (values of the free variables) to the function
it is given, depending on the answers, and returns the values found or raises an error.  An error of the function ends it. -/

namespace TEflow.KappaVar

noncomputable section

variable {α : Type}

/-- what `curve_fit` does with the function it is given; `α` are the answers (kappa at the data points) -/
inductive Search (α : Type) where
  | stop (r : Except PyErr (List ℝ))
  | ask (args : List ℝ) (next : α → Search α)

/-- a search with a function that changes the state -/
def Search.run (f : List ℝ → St → Except PyErr α × St) : Search α → St → Except PyErr (List ℝ) × St
  | .stop r, s => (r, s)
  | .ask args next, s =>
    match f args s with
    | (.error e, s1) => (.error e, s1)
    | (.ok y, s1) => (next y).run f s1

/-- `_cal(T, *args)`, kappa.py:244-264; `eval` is the call of the model at the data, which reads the parameter sets only -/
def calEval (eval : St → Except PyErr α) (vars ders : List Nat) (args : List ℝ) (s : St) : Except PyErr α × St :=
  match cal vars ders args s with
  | (.error e, s1) => (.error e, s1)
  | (.ok _, s1) => (eval s1, s1)

/-- the attributes `__vars` and `__ders` of a model, kappa.py:229-230 -/
structure Fitter where
  vars : List Nat := []
  ders : List Nat := []

/-- what `fit` returns: kappa values if there is nothing to fit, otherwise the values found (the covariance matrix is left out) -/
inductive FitResult (α : Type) where
  | values (y : α)
  | found (popt : List ℝ)

/-- `fit(dataT, dataK, variables=listed, **kwargs)`, kappa.py:266-292.  A `none` in the list is not a `Variable`;
`given` tells whether `p0` or `bounds` is among the keyword arguments; `search` is `curve_fit` for start values and bounds. -/
def fit (eval : St → Except PyErr α) (search : List ℝ → List ℝ → List ℝ → Search α) (listed : List (Option Nat)) (given : Bool)
    (m : Fitter) (s : St) : Except PyErr (FitResult α) × Fitter × St :=
  match listed.mapM id with
  | none => (.error .valueError, m, s)
  | some l =>
    match partitionVars s l with
    | .error e => (.error e, m, s)
    | .ok ([], _) => ((eval s).map .values, m, s)
    | .ok (v :: vs, ders) =>
      if given then (.error .valueError, ⟨v :: vs, ders⟩, s)
      else
        match (v :: vs).mapM (attrs s) with
        | .error e => (.error e, ⟨v :: vs, ders⟩, s)
        | .ok os =>
          let r := (search (os.map Var.value) (os.map Var.lower) (os.map Var.upper)).run (calEval eval (v :: vs) ders) s
          (r.1.map .found, ⟨v :: vs, ders⟩, r.2)

end

end TEflow.KappaVar
