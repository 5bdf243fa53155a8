import Mathlib.Algebra.Order.Field.Basic
import Verif.Model.Basic

/-! # Model of `interpx`, `vinterp`, `vquad` (/repo/src/teflow/mathext.py:498-720) -/

namespace TEflow.Mathext

section Interpx
variable {R : Type} [Field R] [LinearOrder R]

/-- `np.interp` for one query point not outside the data range: the last data point not beyond the query, then the
straight line to the next one (numpy finds it by bisection; for increasing abscissae this is the same point) -/
def npScan : List (R × R) → R → R
  | [], _ => 0
  | [(_, fa)], _ => fa
  | (a, fa) :: (b, fb) :: rest, q =>
    if q < b then (if q = a then fa else (fb - fa) / (b - a) * (q - a) + fa) else npScan ((b, fb) :: rest) q

/-- `np.interp(q, x, y, left, right)` for one query point; `d` are the data points `(x, y)`, not empty -/
def npInterp (d : List (R × R)) (left right : Option R) (q : R) : R :=
  match d.head?, d.getLast? with
  | some first, some last =>
    if q < first.1 then left.getD first.2 else if last.1 < q then right.getD last.2 else npScan d q
  | _, _ => 0

/-- `_interpx` for one query point, mathext.py:498-509, for at least two data points -/
def interpx1 (d : List (R × R)) (left right : Option R) (q : R) : R :=
  match d, d.reverse with
  | (x0, y0) :: (x1, y1) :: _, (xl, yl) :: (xm, ym) :: _ =>
    if left = none ∧ q < x0 then y0 + (y1 - y0) / (x1 - x0) * (q - x0)
    else if right = none ∧ xl < q then yl + (yl - ym) / (xl - xm) * (q - xl)
    else npInterp d left right q
  | _, _ => npInterp d left right q

/-- the query argument of `interpx`: a single number (0-dimensional) or an array (flattened) -/
inductive Query (R : Type) where
  | scalar (q : R)
  | array (qs : List R)

/-- is the query point to be extrapolated? -/
def extrapolates (d : List (R × R)) (left right : Option R) (q : R) : Prop :=
  (left = none ∧ ∃ f ∈ d.head?, q < f.1) ∨ (right = none ∧ ∃ l ∈ d.getLast?, l.1 < q)

instance (d : List (R × R)) (left right : Option R) (q : R) : Decidable (extrapolates d left right q) := by
  unfold extrapolates; infer_instance

/-- `interpx(x, y, xp, left, right)`, mathext.py:511-545, for one-dimensional `x` and `y`.  `np.interp` returns a numpy
scalar for a single number, and the assignment `yp[idx_left] = …` to it is a `TypeError`; different lengths are
`np.interp`'s `ValueError`. -/
def interpx (x y : List R) (xp : Query R) (left right : Option R) : Except PyErr (Query R) :=
  if x.length < 2 then .error .valueError
  else if x.length ≠ y.length then .error .valueError
  else
    match xp with
    | .array qs => .ok (.array (qs.map (interpx1 (x.zip y) left right)))
    | .scalar q =>
      if extrapolates (x.zip y) left right q then .error .typeError
      else .ok (.scalar (interpx1 (x.zip y) left right q))

end Interpx

section Vinterp
variable {R : Type} [LinearOrder R]

/-- `np.any(np.diff(x) < 0)`: some entry is smaller than its predecessor -/
def hasDescent : List R → Bool
  | a :: b :: l => decide (b < a) || hasDescent (b :: l)
  | _ => false

/-- `l[idx]` (fancy indexing) for indices in range -/
def pick {α : Type} (l : List α) (idx : List Nat) : List α := idx.filterMap (fun i => l[i]?)

/-- all entries, if all of them are finite; an entry is `none` when it is NaN or infinite -/
def allFinite (l : List (Option R)) : Option (List R) := l.mapM id

/-- `vinterp(x, y, xp, method, reorder)`, mathext.py:624-648: `x` one-dimensional, `y` given by its rows along the last
axis, entries `none` are NaN or infinite.  A single `x` is squeezed to dimension 0 and rejected.  `argsort` is numpy's
sort index; `interp` is `_interp_vect` for the chosen method: it maps a row, the abscissae and the query points to the
interpolated values (or an error). -/
def vinterp {β : Type} (argsort : List R → List Nat) (interp : List R → List R → List R → Except PyErr β)
    (x : List (Option R)) (y : List (List (Option R))) (xp : List (Option R)) (reorder : Bool) :
    Except PyErr (List β) :=
  if x.length = 1 then .error .valueError
  else if y.any (fun row => row.length ≠ x.length) then .error .valueError
  else
    match allFinite x, y.mapM allFinite, allFinite xp with
    | some x, some y, some xp =>
      if hasDescent x then
        if reorder then
          let idx := argsort x
          y.mapM (fun row => interp (pick row idx) (pick x idx) xp)
        else .error .valueError
      else y.mapM (fun row => interp row x xp)
    | _, _, _ => .error .valueError

end Vinterp

section Vquad

/-- broadcasting of two shapes, last axis first -/
def bcastRev : List Nat → List Nat → Option (List Nat)
  | [], t => some t
  | s, [] => some s
  | a :: s, b :: t =>
    if a = b then (bcastRev s t).map (a :: ·)
    else if a = 1 then (bcastRev s t).map (b :: ·)
    else if b = 1 then (bcastRev s t).map (a :: ·)
    else none

/-- an array argument: its shape, last axis first, and its entries (index: last axis first) -/
structure NArr (α : Type) where
  rshape : List Nat
  get : List Nat → α

/-- the entry a broadcast array shows at an index of the common shape -/
def NArr.at {α : Type} (x : NArr α) (idx : List Nat) : α :=
  x.get (List.zipWith (fun s i => if s = 1 then 0 else i) x.rshape idx)

/-- the shape of `np.broadcast(...)` of several arguments -/
def bcastAll : List (List Nat) → Option (List Nat)
  | [] => some []
  | s :: ss => (bcastAll ss).bind (bcastRev s)

/-- all indices of a shape (last axis first) in C order: the last axis runs fastest (`np.ndindex`) -/
def ndindex : List Nat → List (List Nat)
  | [] => [[]]
  | s :: rest => (ndindex rest).flatMap (fun i => (List.range s).map (· :: i))

/-- one loop step of `vquad`, mathext.py:713-718; `quad` is the integrator (with `func` and the options fixed) -/
def vquadAt {R : Type} [Zero R] (quad : R → R → List R → R × R) (a b : NArr R) (whr : NArr Bool) (fill : NArr R)
    (args : List (NArr R)) (idx : List Nat) : R × R :=
  if whr.at idx then quad (a.at idx) (b.at idx) (args.map (·.at idx)) else (fill.at idx, 0)

/-- `vquad(func, a, b, args, where, fill_value)`, mathext.py:706-720: the common shape and the results in C order;
incompatible shapes are numpy's `ValueError`.  (numpy's limit on the number of broadcast arguments is not modelled.) -/
def vquad {R : Type} [Zero R] (quad : R → R → List R → R × R) (a b : NArr R) (args : List (NArr R)) (whr : NArr Bool)
    (fill : NArr R) : Except PyErr (List Nat × List (List Nat × (R × R))) :=
  match bcastAll ([a.rshape, b.rshape, whr.rshape, fill.rshape] ++ args.map (·.rshape)) with
  | none => .error .valueError
  | some s => .ok (s, (ndindex s).map (fun idx => (idx, vquadAt quad a b whr fill args idx)))

end Vquad

end TEflow.Mathext
