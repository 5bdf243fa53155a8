import Verif.Model.Dataset

/-! # Independent specifications for data files and groups -/

namespace TEflow.Loader

/-- The data text of a line (without trailing white space): what stands before the first `#`, without the blanks around it;
nothing for an empty line or a line starting with `#`; a single blank for a comment that is indented by blanks. -/
inductive RowText : List Char → Option (List Char) → Prop
  | data (pre core post rest : List Char) (hpre : ∀ c ∈ pre, c = ' ') (hpost : ∀ c ∈ post, c = ' ') (hne : core ≠ [])
      (hhash : '#' ∉ core) (hfirst : core.head? ≠ some ' ') (hlast : core.getLast? ≠ some ' ')
      (hrest : rest = [] ∨ rest.head? = some '#') : RowText (pre ++ core ++ post ++ rest) (some core)
  | indentedComment (pre rest : List Char) (hpre : ∀ c ∈ pre, c = ' ') (hne : pre ≠ []) (hrest : rest.head? = some '#') :
      RowText (pre ++ rest) (some [' '])
  | nothing (rest : List Char) (hrest : rest = [] ∨ rest.head? = some '#') : RowText rest none

/-- a capital letter -/
def Capital (c : Char) : Prop := 'A' ≤ c ∧ c ≤ 'Z'

/-- a character that may follow the capital letter of an identifier: small letter, digit or underscore -/
def Follows (c : Char) : Prop := ('a' ≤ c ∧ c ≤ 'z') ∨ ('0' ≤ c ∧ c ≤ '9') ∨ c = '_'

instance (c : Char) : Decidable (Capital c) := by unfold Capital; infer_instance
instance (c : Char) : Decidable (Follows c) := by unfold Follows; infer_instance

/-- the identifier starting at a place of a group text -/
def identAt : List Char → Option (List Char)
  | [] => none
  | c :: r =>
    if Capital c then
      match r with
      | [] => some [c]
      | d :: _ => some (if Follows d then [c, d] else [c])
    else none

/-- an identifier: an upper-case letter, optionally followed by one lower-case letter, digit or underscore -/
def Ident (n : List Char) : Prop := (∃ c, n = [c] ∧ Capital c) ∨ ∃ c d, n = [c, d] ∧ Capital c ∧ Follows d

/-- the rows `i < n` in which all columns `j` of a block (`p ≤ j < q`) are finite -/
def goodRows {V : Type} (finite : V → Bool) (data : List (List V)) (n p q : Nat) : List Nat :=
  (List.range n).filter (fun i => (List.range data.length).all (fun j =>
    decide (j < p) || decide (q ≤ j) || ((data[j]?.bind (·[i]?)).map finite).getD false))

end TEflow.Loader
