import Mathlib.Data.List.Forall2
import Verif.Model.Instr

/-! # Independent specifications for the instrument parsers -/

namespace TEflow.Loader

/-- `ps` are the pieces of `s` between the separators -/
def Pieces (sep : Char) (s : List Char) (ps : List (List Char)) : Prop :=
  ps ≠ [] ∧ (∀ p ∈ ps, sep ∉ p) ∧ [sep].intercalate ps = s

/-- `m` is `l` without the white space around it -/
def Stripped (l m : List Char) : Prop :=
  ∃ a b, l = a ++ m ++ b ∧ (∀ c ∈ a, pySpace c = true) ∧ (∀ c ∈ b, pySpace c = true) ∧
    (∀ c, m.head? = some c → pySpace c = false) ∧ (∀ c, m.getLast? = some c → pySpace c = false)

/-- the fields of a line -/
def Fields (sep : Char) (line : List Char) (fs : List (List Char)) : Prop := ∃ m, Stripped line m ∧ Pieces sep m fs

/-- numbers `(t, r, s)` read from fields 0, 1 and 4 -/
def TRSRow {K : Type} (float : List Char → Option K) (fs : List (List Char)) (x : K × K × K) : Prop :=
  ∃ v0 v1 v4, fs[0]? = some v0 ∧ fs[1]? = some v1 ∧ fs[4]? = some v4 ∧
    float v0 = some x.1 ∧ float v1 = some x.2.1 ∧ float v4 = some x.2.2

/-- numbers `(t, a)` read from fields 1 and 2 -/
def TARow {K : Type} (float : List Char → Option K) (fs : List (List Char)) (x : K × K) : Prop :=
  ∃ v1 v2, fs[1]? = some v1 ∧ fs[2]? = some v2 ∧ float v1 = some x.1 ∧ float v2 = some x.2

end TEflow.Loader
