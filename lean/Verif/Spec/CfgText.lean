import Verif.Model.CfgText
import Verif.Props.KappaCfgSubst

/-! # What a configuration file shows

A description of the files a user writes, independent of how they are read: comment lines, empty lines, headers, options with values
over one or more lines. -/

namespace TEflow.CfgText

open Re PyDict
open KappaCfg (Blank Spaces)

/-- the end of a line: blanks, and perhaps a comment behind a blank -/
def Tail (t : List Char) : Prop := Blank t ∨ ∃ b c r, t = b ++ c :: '#' :: r ∧ Blank b ∧ pySpace c = true

/-- no comment begins in the text: every hash has a character before it, which is no blank -/
def NoComment (c : List Char) : Prop := ∀ a b, c = a ++ '#' :: b → ∃ d, a.getLast? = some d ∧ pySpace d = false

/-- no blanks at either end -/
def Trim (c : List Char) : Prop := (∀ d, c.head? = some d → pySpace d = false) ∧ (∀ d, c.getLast? = some d → pySpace d = false)

/-- the line shows the text `c`, behind `k` blanks -/
def Shows (k : Nat) (c line : List Char) : Prop :=
  ∃ ind tail, line = ind ++ (c ++ tail) ∧ Blank ind ∧ ind.length = k ∧ c ≠ [] ∧ Trim c ∧ NoComment c ∧ Tail tail

/-- a line holding nothing but a comment -/
def CommentLine (line : List Char) : Prop := ∃ ind r, line = ind ++ '#' :: r ∧ Blank ind

/-- `[ name ]`, not indented -/
def HeaderLine (name line : List Char) : Prop :=
  ∃ s s' rest, Shows 0 ('[' :: (s ++ (name ++ (s' ++ ']' :: rest)))) line ∧ Spaces s ∧ Spaces s' ∧ name ≠ [] ∧ ']' ∉ name ∧
    name.head? ≠ some ' ' ∧ name.getLast? ≠ some ' '

/-- `name = value` behind `k` blanks -/
def OptionLine (k : Nat) (name value line : List Char) : Prop :=
  ∃ s s', Shows k (name ++ (s ++ '=' :: (s' ++ value))) line ∧ Blank s ∧ Blank s' ∧ name ≠ [] ∧ Trim name ∧ Trim value ∧ '=' ∉ name ∧
    name.head? ≠ some '['

/-- a line following an option at indentation `k`, and what it adds to the lines of the value: a comment adds nothing, an empty line an
empty line, a line indented deeper its text -/
def MoreLine (k : Nat) (line : List Char) (add : List (List Char)) : Prop :=
  (CommentLine line ∧ add = []) ∨ (Blank line ∧ add = [[]]) ∨ ∃ c k', Shows k' c line ∧ k < k' ∧ add = [c]

/-- an option line with the lines belonging to it; the value is their text without the blanks at its end -/
def OptionBlock (k : Nat) (opt : List Char × List Char) (lines : List (List Char)) : Prop :=
  ∃ l ls v adds t, lines = l :: ls ∧ OptionLine k opt.1 v l ∧ List.Forall₂ (MoreLine k) ls adds ∧
    Interface.join ['\n'] (v :: adds.flatten) = opt.2 ++ t ∧ Blank t ∧ ∀ d, opt.2.getLast? = some d → pySpace d = false

/-- comments and empty lines -/
def Junk (lines : List (List Char)) : Prop := ∀ l ∈ lines, CommentLine l ∨ Blank l

/-- a section: its header, comments and empty lines, its options, equally indented -/
def SectionBlock (sect : List Char × List (List Char × List Char)) (lines : List (List Char)) : Prop :=
  ∃ h junk k blocks, lines = h :: (junk ++ blocks.flatten) ∧ HeaderLine sect.1 h ∧ Junk junk ∧ List.Forall₂ (OptionBlock k) sect.2 blocks ∧
    (sect.2.map Prod.fst).Nodup ∧ sect.1 ≠ "DEFAULT".toList

/-- a file: comments and empty lines, then sections -/
def FileShows (cfg : List (List Char × List (List Char × List Char))) (lines : List (List Char)) : Prop :=
  ∃ junk blocks, lines = junk ++ blocks.flatten ∧ Junk junk ∧ List.Forall₂ SectionBlock cfg blocks ∧ (cfg.map Prod.fst).Nodup

end TEflow.CfgText
