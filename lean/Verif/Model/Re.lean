/-!
# A model of Python's `re` (backtracking) for the patterns used by TEflow

A pattern is a syntax tree; `Re.run` returns *all* ways the pattern can match at a position, in the
order in which a backtracking engine tries them.  The match Python reports is the first one
(`Re.matchAt`).  Positions carry the text before them (reversed) so that look-behind can be modelled.
Characters are Unicode scalar values.
-/

namespace TEflow

/-- `\s` for `str` patterns: exactly the characters for which Python's `str.isspace` holds. -/
def pySpace (c : Char) : Bool :=
  let n := c.toNat
  (9 ≤ n && n ≤ 13) || (28 ≤ n && n ≤ 32) || n == 0x85 || n == 0xa0 || n == 0x1680 ||
  (0x2000 ≤ n && n ≤ 0x200a) || n == 0x2028 || n == 0x2029 || n == 0x202f || n == 0x205f || n == 0x3000

/-- Syntax of the regular expressions used by the project. -/
inductive Re where
  /-- one character of a class -/
  | cls (p : Char → Bool)
  | eps
  | seq (a b : Re)
  | alt (a b : Re)
  /-- `a*` (greedy) -/
  | star (a : Re)
  /-- `a*?` (lazy) -/
  | lazyStar (a : Re)
  /-- `(?=a)` -/
  | ahead (a : Re)
  /-- `(?!a)` -/
  | notAhead (a : Re)
  /-- `(?<!c)` for a single character class -/
  | notBehind (p : Char → Bool)
  /-- `^` (without MULTILINE) -/
  | bos
  /-- `$` (without MULTILINE): at the end, or just before a final newline -/
  | eos

/-- a position in the text: what lies before (reversed) and what is still to come -/
structure Pos where
  before : List Char
  rest : List Char
  deriving DecidableEq, Repr

namespace Re

/-- all results of repeating `f` greedily; every repetition has to make progress, so the length of the
remaining text bounds the number of repetitions -/
def starN (f : Pos → List Pos) : Nat → Pos → List Pos
  | 0, s => [s]
  | n + 1, s => ((f s).filter (fun t => t.rest.length < s.rest.length)).flatMap (starN f n) ++ [s]

/-- the same, fewest repetitions first -/
def lazyStarN (f : Pos → List Pos) : Nat → Pos → List Pos
  | 0, s => [s]
  | n + 1, s => s :: ((f s).filter (fun t => t.rest.length < s.rest.length)).flatMap (lazyStarN f n)

/-- every way to match at a position, in the order tried by a backtracking engine -/
def run : Re → Pos → List Pos
  | .cls p, s => match s.rest with
    | [] => []
    | c :: r => if p c then [⟨c :: s.before, r⟩] else []
  | .eps, s => [s]
  | .seq a b, s => (run a s).flatMap (run b)
  | .alt a b, s => run a s ++ run b s
  | .star a, s => starN (run a) s.rest.length s
  | .lazyStar a, s => lazyStarN (run a) s.rest.length s
  | .ahead a, s => if (run a s).isEmpty then [] else [s]
  | .notAhead a, s => if (run a s).isEmpty then [s] else []
  | .notBehind p, s => match s.before with
    | [] => [s]
    | c :: _ => if p c then [] else [s]
  | .bos, s => if s.before.isEmpty then [s] else []
  | .eos, s => if s.rest.isEmpty || s.rest == ['\n'] then [s] else []

/-- `a+` -/
def plus (a : Re) : Re := .seq a (.star a)
/-- `a?` -/
def opt (a : Re) : Re := .alt a .eps
/-- `a+?` -/
def lazyPlus (a : Re) : Re := .seq a (.lazyStar a)
/-- a literal character -/
def chr (c : Char) : Re := .cls (· == c)

/-- the match reported at a position: the end position of the first alternative that succeeds -/
def matchAt (r : Re) (s : Pos) : Option Pos := (run r s).head?

/-- the matched text between two positions of the same text -/
def between (s t : Pos) : List Char := s.rest.take (s.rest.length - t.rest.length)

/-- `re.split(r, text)` from a position, for patterns that never match the empty text
(all patterns of the project are of this kind; an empty match would be skipped here).
`acc` is the current piece, reversed.  The first argument bounds the number of steps and is started with the
length of the text, which always suffices because every step consumes a character. -/
def splitGo (r : Re) : Nat → List Char → Pos → List (List Char)
  | 0, acc, _ => [acc.reverse]
  | n + 1, acc, s => match s.rest with
    | [] => [acc.reverse]
    | c :: cs =>
      match matchAt r s with
      | some t =>
        if t.rest.length < s.rest.length then acc.reverse :: splitGo r n [] t
        else splitGo r n (c :: acc) ⟨c :: s.before, cs⟩
      | none => splitGo r n (c :: acc) ⟨c :: s.before, cs⟩

/-- `re.split(r, text)` -/
def split (r : Re) (text : List Char) : List (List Char) := splitGo r text.length [] ⟨[], text⟩

/-- the successive non-overlapping matches (`re.finditer`), as pairs of start and end position -/
def findGo (r : Re) : Nat → Pos → List (Pos × Pos)
  | 0, _ => []
  | n + 1, s => match s.rest with
    | [] => []
    | c :: cs =>
      match matchAt r s with
      | some t =>
        if t.rest.length < s.rest.length then (s, t) :: findGo r n t
        else findGo r n ⟨c :: s.before, cs⟩
      | none => findGo r n ⟨c :: s.before, cs⟩

/-- the matched texts, in order: `[m.group() for m in re.finditer(r, text)]` -/
def findAll (r : Re) (text : List Char) : List (List Char) :=
  (findGo r text.length ⟨[], text⟩).map (fun p => between p.1 p.2)

/-- all ways to match a sequence of pattern parts one after the other, in backtracking order; each way is the list
of the positions after each part (this is how capture groups are read off) -/
def runParts : List Re → Pos → List (List Pos)
  | [], _ => [[]]
  | r :: rs, s => (run r s).flatMap (fun t => (runParts rs t).map (t :: ·))

/-- `re.finditer` for a pattern given in parts: the start position of each match and the position after each part -/
def findPartsGo (rs : List Re) : Nat → Pos → List (Pos × List Pos)
  | 0, _ => []
  | n + 1, s => match s.rest with
    | [] => []
    | c :: cs =>
      match (runParts rs s).head? with
      | some bs =>
        if ((bs.getLast?).getD s).rest.length < s.rest.length then
          (s, bs) :: findPartsGo rs n ((bs.getLast?).getD s)
        else findPartsGo rs n ⟨c :: s.before, cs⟩
      | none => findPartsGo rs n ⟨c :: s.before, cs⟩

end Re
end TEflow
