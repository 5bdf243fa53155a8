import Verif.Model.CfgText

/-! # What a value with references means

Independent of the way the text is scanned: `$$` stands for a dollar sign, `${name}` for the value of that option in the same section (or in
`[DEFAULT]`), `${section:name}` for that of another section; the values are read in the section in which they are found. -/

namespace TEflow.CfgRef

open PyDict CfgText

/-- the configuration gives the option of the section this raw value: its own one, else that of `[DEFAULT]` -/
def Gives (p : Parsed) (s o v : List Char) : Prop :=
  (∃ opts, get? p.sections s = some opts ∧ (get? opts o = some v ∨ (get? opts o = none ∧ get? p.defaults o = some v))) ∨
  (get? p.sections s = none ∧ s = "DEFAULT".toList ∧ get? p.defaults o = some v)

/-- seen from section `s`, the name between the braces means option `o` of section `t` -/
def Names (s name t o : List Char) : Prop :=
  '}' ∉ name ∧ name ≠ [] ∧ ((':' ∉ name ∧ t = s ∧ o = name) ∨ (name = t ++ ':' :: o ∧ ':' ∉ t ∧ ':' ∉ o))

/-- `${name}` -/
def refText (name : List Char) : List Char := '$' :: '{' :: (name ++ ['}'])

/-- in section `s` the text reads `out`, when `V t v a` says that the value `v`, found in section `t`, reads `a` -/
inductive Reads (p : Parsed) (V : List Char → List Char → List Char → Prop) (s : List Char) : List Char → List Char → Prop where
  | done : Reads p V s [] []
  | char {c : Char} {r out : List Char} : c ≠ '$' → Reads p V s r out → Reads p V s (c :: r) (c :: out)
  | dollar {r out : List Char} : Reads p V s r out → Reads p V s ('$' :: '$' :: r) ('$' :: out)
  | ref {name t o v a r out : List Char} : Names s name t o → Gives p t o v → V t v a → Reads p V s r out →
      Reads p V s (refText name ++ r) (a ++ out)

/-- with at most `n` values containing dollar signs on the way, the value `v` found in section `s` reads `a` -/
def Means (p : Parsed) : Nat → List Char → List Char → List Char → Prop
  | 0 => fun _ v a => '$' ∉ v ∧ a = v
  | n + 1 => fun s v a => Reads p (Means p n) s v a

/-- the dollar signs of the text are doubled or begin references -/
inductive Closed : List Char → Prop where
  | done : Closed []
  | char {c : Char} {r : List Char} : c ≠ '$' → Closed r → Closed (c :: r)
  | dollar {r : List Char} : Closed r → Closed ('$' :: '$' :: r)
  | ref {name r : List Char} : '}' ∉ name → name ≠ [] → Closed r → Closed (refText name ++ r)

/-- the value, found in section `s`, has a reference to option `o` of section `t` -/
def RefersTo (s v t o : List Char) : Prop :=
  ∃ before name after, v = before ++ (refText name ++ after) ∧ Closed before ∧ Names s name t o

/-- every dollar sign doubled -/
def doubled (v : List Char) : List Char := v.flatMap fun c => if c = '$' then ['$', '$'] else [c]

end TEflow.CfgRef
