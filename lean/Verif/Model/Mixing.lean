import Mathlib.Algebra.Field.Defs
import Mathlib.Algebra.BigOperators.Group.List.Basic
import Verif.Model.Basic

/-! # Model of `mixing` (/repo/src/teflow/mathext.py:230-269) -/

namespace TEflow.Mathext

/-- a numpy array: whether its dtype is an integer one, its shape, its entries in C order -/
structure Arr (R : Type) where
  isInt : Bool
  shape : List Nat
  vals : List R
  deriving DecidableEq, Repr

variable {R : Type}

/-- the number of entries belongs to the shape -/
def Arr.WF (a : Arr R) : Prop := a.vals.length = a.shape.prod

/-- the loop, mathext.py:262-268: `data += scale*w*d`.  An in-place addition of floats to an integer array
(`zeros_like` takes over the dtype of the first data) is refused by numpy with a `TypeError`. -/
def mixLoop [Field R] (scale : R) : Arr R → List (Arr R × R) → Except PyErr (Arr R)
  | data, [] => .ok data
  | data, (d, w) :: rest =>
    if d.shape ≠ data.shape then .error .valueError
    else if data.isInt then .error .typeError
    else mixLoop scale { data with vals := List.zipWith (· + ·) data.vals (d.vals.map (scale * w * ·)) } rest

/-- the weights used, mathext.py:251-256 -/
def mixWeights [Field R] (num : Nat) : Option (List R) → Except PyErr (List R)
  | none => .ok (List.replicate num 1)
  | some w => if w.length ≠ num then .error .valueError else .ok w

/-- `mixing(datas, weight, scale)`, mathext.py:230-269; `weight` is a list of numbers or `None`, `scale` a number or
`None`.  (`1/np.sum(weight)` for a vanishing sum is an infinity in numpy, here it is `0`: excluded in the theorems.) -/
def mixing [Field R] (datas : List (Arr R)) (weight : Option (List R)) (scale : Option R) : Except PyErr (Arr R) :=
  let num := datas.length
  match mixWeights num weight with
  | .error e => .error e
  | .ok w =>
    let scale := match scale with | none => 1 / w.sum | some s => s
    match datas with
    | [] => .error .indexError
    | d0 :: _ =>
      mixLoop scale { isInt := d0.isInt, shape := d0.shape, vals := List.replicate d0.vals.length 0 } (datas.zip w)

end TEflow.Mathext
