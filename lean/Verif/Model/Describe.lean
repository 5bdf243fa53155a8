import Verif.Model.NumText
import Verif.Model.Dataset

/-! # Model of the texts that describe objects: `str(band)`, `str(MultiBands)`, `str(TEdataset)`, `str(TEdataset2)`

/repo/src/teflow/bandlib.py:520-527, 744-747, 1037-1040, 1238-1241 and loader.py:747-750, 797-802.  Parameters are finite numbers (`Num`); the
texts of NaN, infinities, arrays and of subclasses (`__class__.__name__` is the name of the class of the object) are not modelled. -/

namespace TEflow.Describe

open NumText TableFile Loader

/-- `', '.join(...)` -/
def joinComma : List (List Char) → List Char
  | [] => []
  | [a] => a
  | a :: b :: l => a ++ ',' :: ' ' :: joinComma (b :: l)

/-- one `f'{p}={getattr(self, p):.6g}'` -/
def propText (p : String) (x : Num) : List Char := p.toList ++ '=' :: general 6 x

mutual
/-- a band, or a `MultiBands` object, with what its text shows -/
inductive Shown where
  | spb (m_d sigma0 Kmass : Num)
  | skb (m_d sigma0 Eg Kmass : Num)
  | linear (vF sigma0 : Num)
  | multi (entries : Entries)
/-- `zip(self.bands, self.deltas)`; `valence` is `band._q_sign > 0` -/
inductive Entries where
  | nil
  | cons (band : Shown) (delta : Num) (valence : Bool) (rest : Entries)
end

/-- `APSSPB.__str__`, bandlib.py:744-747 -/
@[irreducible] def spbText (m s k : Num) : List Char :=
  "APSSPB(".toList ++ (joinComma [propText "m_d" m, propText "sigma0" s, propText "Kmass" k] ++ [')'])

/-- `APSSKB.__str__`, bandlib.py:1037-1040 -/
@[irreducible] def skbText (m s e k : Num) : List Char :=
  "APSSKB(".toList ++ (joinComma [propText "m_d" m, propText "sigma0" s, propText "Eg" e, propText "Kmass" k] ++ [')'])

/-- `LinearBand.__str__`, bandlib.py:1238-1241 -/
@[irreducible] def linearText (v s : Num) : List Char := "LinearBand(".toList ++ (joinComma [propText "vF" v, propText "sigma0" s] ++ [')'])

/-- one turn of the loop of `MultiBands.__str__`, bandlib.py:522-524: the text of the entry followed by `rest` -/
@[irreducible] def entryText (band : List Char) (d : Num) (valence : Bool) (rest : List Char) : List Char :=
  "\n  ".toList ++ (band ++ (" @ ".toList ++ (general 6 d ++ (" #".toList ++ ((if valence then 'V' else 'C') :: rest)))))

/-- the first line of `MultiBands.__str__`, bandlib.py:521, followed by the entries -/
@[irreducible] def multiText (entries : List Char) : List Char := "MultiBands:".toList ++ entries

mutual
/-- `str(band)` -/
def bandText : Shown → List Char
  | .spb m s k => spbText m s k
  | .skb m s e k => skbText m s e k
  | .linear v s => linearText v s
  | .multi es => multiText (entriesText es)
/-- the loop of `MultiBands.__str__`, bandlib.py:522-526 -/
def entriesText : Entries → List Char
  | .nil => []
  | .cons b d v rest => entryText (bandText b) d v (entriesText rest)
end

/-- `str(n)` of an integer that is not negative (`len(v)` and `tidx[k]`) -/
def natText (n : Nat) : List Char := padded 1 n

/-- `TEdataset.__str__`, loader.py:747-750 -/
@[irreducible] def datasetText {τ α : Type} (ds : Dataset τ (List α)) : List Char :=
  "TEdataset: ".toList ++ joinComma (ds.map fun p => p.1.toList ++ '#' :: natText p.2.data.length)

/-- `TEdataset2.__str__`, loader.py:797-802 (`TEMP_SYMBOL` is `'T'`; an index is never negative) -/
@[irreducible] def dataset2Text {τ α : Type} (ds : Dataset τ (List α)) : List Char :=
  "TEdataset2: ".toList ++
    joinComma (ds.map fun p => p.1.toList ++ ('_' :: 'T' :: (natText p.2.tidx.toNat ++ '#' :: natText p.2.data.length)))

end TEflow.Describe
