import Mathlib.Algebra.Order.Field.Basic
import Mathlib.Data.List.Basic
import Verif.Model.Basic

/-! # Model of the band objects of /repo/src/teflow/bandlib.py: caching, `MultiBands`, `guess_btypes`

Numbers are elements of an ordered field, one Fermi level and one temperature at a time (numpy applies everything
elementwise).  A single band is a record with its three integrals as functions of `(EF, T)` — they are modelled in
`Verif.Model.BandFuncs` — its carrier sign and its cache.  Bands live on a heap (`Nat → Leaf`), since a `MultiBands` object
holds references to them.  `MultiBands` objects inside others: `Verif.Model.BandNest`. -/

namespace TEflow.Bandlib

section
variable {R : Type} [Field R] [LinearOrder R]

/-- `kB_eV`, bandlib.py:63 -/
def kB : R := 8617333262145179 / 100000000000000000000
/-- `q`, bandlib.py:66 -/
def qe : R := 1602176634 / 10 ^ 28
/-- `BaseBand._S0`, bandlib.py:158 -/
def S0 : R := 8617333262145179 / 100000000000000
/-- `BaseBand._L0`, bandlib.py:159 -/
def L0 : R := 7425843255087367 / 10000000000000000

/-- the dictionary `_caching`, bandlib.py:235-241; the Hall integral of `LinearBand` is `None` -/
structure Cache (R : Type) where
  EF : R
  T : R
  N : R
  Kn : List R
  H : Option R
  deriving DecidableEq

/-- a single band -/
structure Leaf (R : Type) where
  /-- `_q_sign` -/
  sign : R
  /-- `_N` without cache -/
  n : R → R → R
  /-- `_K_n` without cache -/
  k : Nat → R → R → R
  /-- the integral of `hall`; absent for `LinearBand` -/
  h : Option (R → R → R)
  /-- `_caching` -/
  cache : Option (Cache R) := none

/-- `_CCRH`, bandlib.py:224-227, 1267-1269 -/
def Leaf.ccrh (b : Leaf R) (EF T : R) : Option R := b.h.map fun h => b.sign * h EF T

/-- `BaseBand.compile`, bandlib.py:229-241 -/
def Leaf.compile (b : Leaf R) (EF T : R) (level : Nat) : Leaf R :=
  { b with cache := some ⟨EF, T, b.n EF T, (List.range (level + 1)).map fun i => b.k i EF T, b.ccrh EF T⟩ }

/-- `BaseBand.clear`, bandlib.py:243-245 -/
def Leaf.clear (b : Leaf R) : Leaf R := { b with cache := none }

/-- what the property methods read: `fetch('_N')`, `fetch('_K_n', index)`, `fetch('_CCRH')`, `fetch('_T', default=T)` and
the carrier sign -/
structure Src (R : Type) where
  sign : R
  N : Except PyErr R
  K : Nat → Except PyErr R
  H : Except PyErr (Option R)
  T : Except PyErr R

/-- reading a compiled object, bandlib.py:270-278: the arguments are ignored -/
def Cache.src (c : Cache R) (sign : R) : Src R where
  sign := sign
  N := .ok c.N
  K := fun i => match c.Kn[i]? with
    | some v => .ok v
    | none => .error .indexError
  H := .ok c.H
  T := .ok c.T

/-- `fetch` for a single band, bandlib.py:247-285.  `none`: called without arguments (`EF=None, T=None`), which fails with a
`TypeError` in the first computation if the band is not compiled. -/
def Leaf.src (b : Leaf R) (args : Option (R × R)) : Src R :=
  match b.cache with
  | some c => c.src b.sign
  | none => match args with
    | some (EF, T) => ⟨b.sign, .ok (b.n EF T), fun i => .ok (b.k i EF T), .ok (b.ccrh EF T), .ok T⟩
    | none => ⟨b.sign, .error .typeError, fun _ => .error .typeError, .error .typeError, .error .typeError⟩

/-- the properties, bandlib.py:297-387 -/
inductive TProp where
  | N | K_0 | K_1 | K_2 | CCRH | C | CS | S | PF | CL | L | Ke | U | RH | UH | NH
  deriving DecidableEq, Repr

/-- the name of the method -/
def TProp.name : TProp → String
  | .N => "N" | .K_0 => "K_0" | .K_1 => "K_1" | .K_2 => "K_2" | .CCRH => "CCRH" | .C => "C" | .CS => "CS" | .S => "S"
  | .PF => "PF" | .CL => "CL" | .L => "L" | .Ke => "Ke" | .U => "U" | .RH => "RH" | .UH => "UH" | .NH => "NH"

/-- all of them -/
def TProp.all : List TProp :=
  [.N, .K_0, .K_1, .K_2, .CCRH, .C, .CS, .S, .PF, .CL, .L, .Ke, .U, .RH, .UH, .NH]

/-- arithmetic with `None` is a `TypeError` -/
def needNum (x : Except PyErr (Option R)) : Except PyErr R :=
  match x with
  | .error e => .error e
  | .ok none => .error .typeError
  | .ok (some v) => .ok v

/-- the property methods, bandlib.py:297-387 (`None` only for the Hall integral of `LinearBand`; division by zero gives
infinities or NaN in the program, 0 here) -/
def Src.prop (s : Src R) : TProp → Except PyErr (Option R)
  | .N => s.N.map some
  | .K_0 => (s.K 0).map some
  | .K_1 => (s.K 1).map some
  | .K_2 => (s.K 2).map some
  | .CCRH => s.H
  | .C => (s.K 0).map some
  | .CS => do
    let p1 ← s.K 1
    return some (s.sign * 1000000 * kB * p1)
  | .S => do
    let p0 ← s.K 0
    let p1 ← s.K 1
    return some (s.sign * S0 * p1 / p0)
  | .PF => do
    let p0 ← s.K 0
    let p1 ← s.K 1
    return some (1000000 * kB * kB * (p1 ^ 2 / p0))
  | .CL => do
    let p0 ← s.K 0
    let p1 ← s.K 1
    let p2 ← s.K 2
    return some (100 * kB * kB * (p2 - p1 ^ 2 / p0))
  | .L => do
    let p0 ← s.K 0
    let p1 ← s.K 1
    let p2 ← s.K 2
    return some (L0 * (p2 / p0 - (p1 / p0) ^ 2))
  | .Ke => do
    let p0 ← s.K 0
    let p1 ← s.K 1
    let p2 ← s.K 2
    let pT ← s.T
    return some (100 * kB * kB * (p2 - p1 ^ 2 / p0) * pT)
  | .U => do
    let pC ← s.K 0
    let pN ← s.N
    return some (pC / (s.sign * qe * pN * 10 ^ 19))
  | .RH => do
    let h ← needNum s.H
    let p0 ← s.K 0
    return some (h / p0 ^ 2)
  | .UH => do
    let h ← needNum s.H
    let p0 ← s.K 0
    return some (h / p0)
  | .NH => do
    let p0 ← s.K 0
    let h ← needNum s.H
    return some (1 / 10 ^ 19 * p0 ^ 2 / h / (s.sign * qe))

/-- `band.X(EF, T)` -/
def Leaf.prop (b : Leaf R) (p : TProp) (args : Option (R × R)) : Except PyErr (Option R) := (b.src args).prop p

/-- `band[key]`, bandlib.py:287-295 (`EF`, `T` and the properties; `Kbip` of `MultiBands` is left out) -/
def getItem (cache : Option (Cache R)) (src : Src R) (key : String) : Except PyErr (Option R) :=
  match cache with
  | none => .error .runtimeError
  | some c =>
    if key = "EF" then .ok (some c.EF)
    else if key = "T" then .ok (some c.T)
    else match TProp.all.find? fun p => p.name = key with
      | some p => src.prop p
      | none => .error .keyError

/-- operations on a single band -/
inductive LeafOp (R : Type) where
  | compile (EF T : R) (level : Nat)
  | clear

/-- a sequence of operations -/
def Leaf.run (b : Leaf R) : List (LeafOp R) → Leaf R
  | [] => b
  | .compile EF T level :: ops => (b.compile EF T level).run ops
  | .clear :: ops => b.clear.run ops

/-! ## `MultiBands` -/

/-- the bands in memory -/
abbrev Heap (R : Type) := Nat → Leaf R

/-- replacing one object -/
def Heap.set (w : Heap R) (i : Nat) (b : Leaf R) : Heap R := fun j => if j = i then b else w j

/-- a `MultiBands` object: references to the bands, offsets, cache.  Its own `_q_sign` is the class default 1. -/
structure Multi (R : Type) where
  ids : List Nat
  deltas : List R
  cache : Option (Cache R) := none

/-- `-1*band._q_sign*(EF-delta)` -/
def shiftEF (b : Leaf R) (delta EF : R) : R := -1 * b.sign * (EF - delta)

/-- the loops `for band, delta in zip(self.bands, self.deltas): tot += …` -/
def sumBands (f : Nat × R → Except PyErr R) : R → List (Nat × R) → Except PyErr R
  | acc, [] => .ok acc
  | acc, x :: xs => match f x with
    | .error e => .error e
    | .ok v => sumBands f (acc + v) xs

/-- `MultiBands._N`, bandlib.py:557-564 -/
def Multi.totN (m : Multi R) (w : Heap R) (EF T : R) : Except PyErr R :=
  sumBands (fun x => ((w x.1).src (some (shiftEF (w x.1) x.2 EF, T))).N) 0 (m.ids.zip m.deltas)

/-- `MultiBands._K_n`, bandlib.py:566-574 -/
def Multi.totK (m : Multi R) (w : Heap R) (i : Nat) (EF T : R) : Except PyErr R :=
  sumBands (fun x => (((w x.1).src (some (shiftEF (w x.1) x.2 EF, T))).K i).map fun v => (w x.1).sign ^ i * v) 0
    (m.ids.zip m.deltas)

/-- `MultiBands._CCRH`, bandlib.py:576-583 -/
def Multi.totH (m : Multi R) (w : Heap R) (EF T : R) : Except PyErr R :=
  sumBands (fun x => needNum ((w x.1).src (some (shiftEF (w x.1) x.2 EF, T))).H) 0 (m.ids.zip m.deltas)

/-- what the property methods of a `MultiBands` object read.  Without arguments an uncompiled object fails with a
`TypeError` (unless it has no band: not modelled). -/
def Multi.src (m : Multi R) (w : Heap R) (args : Option (R × R)) : Src R :=
  match m.cache with
  | some c => c.src 1
  | none => match args with
    | some (EF, T) => ⟨1, m.totN w EF T, fun i => m.totK w i EF T, (m.totH w EF T).map some, .ok T⟩
    | none => ⟨1, .error .typeError, fun _ => .error .typeError, .error .typeError, .error .typeError⟩

/-- `multi.X(EF, T)` -/
def Multi.prop (m : Multi R) (w : Heap R) (p : TProp) (args : Option (R × R)) : Except PyErr (Option R) :=
  (m.src w args).prop p

/-- the loop compiling the sub-bands, bandlib.py:596-599 -/
def compileBands (EF T : R) (level : Nat) : Heap R → List (Nat × R) → Heap R
  | w, [] => w
  | w, (i, delta) :: xs => compileBands EF T level (w.set i ((w i).compile (shiftEF (w i) delta EF) T level)) xs

/-- `mapM` over the levels -/
def levels (f : Nat → Except PyErr R) (level : Nat) : Except PyErr (List R) := (List.range (level + 1)).mapM f

/-- `MultiBands.compile`, bandlib.py:586-600: the sub-bands are compiled first; if one of the totals fails (a `LinearBand`
has no Hall integral) the object keeps its old cache -/
def Multi.compile (m : Multi R) (w : Heap R) (EF T : R) (level : Nat) : Except PyErr Unit × Multi R × Heap R :=
  let w' := compileBands EF T level w (m.ids.zip m.deltas)
  let r : Except PyErr (Cache R) := do
    let n ← m.totN w' EF T
    let ks ← levels (fun i => m.totK w' i EF T) level
    let h ← m.totH w' EF T
    return ⟨EF, T, n, ks, some h⟩
  match r with
  | .ok c => (.ok (), { m with cache := some c }, w')
  | .error e => (.error e, m, w')

/-- `MultiBands.clear`, bandlib.py:602-610 -/
def Multi.clear (m : Multi R) (w : Heap R) : Multi R × Heap R :=
  ({ m with cache := none }, m.ids.foldl (fun w i => w.set i (w i).clear) w)

/-- the part sums of `Kbip`, bandlib.py:615-627: number of bands, `p0`, `p1` for conduction and valence bands -/
structure BipSum (R : Type) where
  Nc : Nat := 0
  Nv : Nat := 0
  p0c : R
  p1c : R
  p0v : R
  p1v : R

/-- one turn of the loop, bandlib.py:617-627 -/
def bipStep (w : Heap R) (args : Option (R × R)) (a : BipSum R) (x : Nat × R) : Except PyErr (BipSum R) :=
  let b := w x.1
  if b.sign < 0 then do
    let s := b.src (args.map fun y => (y.1 - x.2, y.2))
    let k0 ← s.K 0
    let k1 ← s.K 1
    return { a with Nc := a.Nc + 1, p0c := a.p0c + k0, p1c := a.p1c - k1 }
  else do
    let s := b.src (args.map fun y => (x.2 - y.1, y.2))
    let k0 ← s.K 0
    let k1 ← s.K 1
    return { a with Nv := a.Nv + 1, p0v := a.p0v + k0, p1v := a.p1v + k1 }

/-- the loop of `Kbip` -/
def bipLoop (w : Heap R) (args : Option (R × R)) : BipSum R → List (Nat × R) → Except PyErr (BipSum R)
  | a, [] => .ok a
  | a, x :: xs => match bipStep w args a x with
    | .error e => .error e
    | .ok a' => bipLoop w args a' xs

/-- `MultiBands.Kbip`, bandlib.py:612-641 -/
def Multi.Kbip (m : Multi R) (w : Heap R) (args : Option (R × R)) : Except PyErr R := do
  let a ← bipLoop w args { p0c := 0, p1c := 0, p0v := 0, p1v := 0 } (m.ids.zip m.deltas)
  if a.Nc = 0 then return 0
  else if a.Nv = 0 then return 0
  else do
    let pr := (a.p1c ^ 2 / a.p0c + a.p1v ^ 2 / a.p0v) - (a.p1c + a.p1v) ^ 2 / (a.p0c + a.p0v)
    let pT ← (m.src w args).T
    return 100 * kB * kB * pr * pT

/-- one letter of `guess_btypes`, bandlib.py:672-679 -/
def guessOne (delta : R) : Char := if |delta| < 1 / 1000000 then 'X' else if 0 < delta then 'C' else 'V'

/-- `MultiBands.guess_btypes`, bandlib.py:643-688: the comparisons of sets of letters -/
def guessBtypes (deltas : List R) : Except PyErr (List (List Char)) :=
  let b := deltas.map guessOne
  let c := 'C' ∈ b
  let v := 'V' ∈ b
  let x := 'X' ∈ b
  if (x ∧ ¬ c ∧ ¬ v) ∨ (x ∧ c ∧ v) then .error .valueError
  else if x ∧ c ∧ ¬ v then .ok (List.replicate deltas.length ['C'])
  else if x ∧ v ∧ ¬ c then .ok (List.replicate deltas.length ['V'])
  else .ok (b.map fun ch => [ch])

/-- the sign for a type, bandlib.py:493-500: the first letter in lower case -/
def signOfType : List Char → Except PyErr R
  | [] => .error .indexError
  | ch :: _ => if ch = 'v' ∨ ch = 'V' then .ok 1 else if ch = 'c' ∨ ch = 'C' then .ok (-1) else .error .valueError

/-- `MultiBands.append`, bandlib.py:467-503.  `none` for `band`: not a band object.  Offsets that are no numbers are not
modelled.  The sign is stored in the band object. -/
def Multi.append (m : Multi R) (w : Heap R) (band : Option Nat) (delta : R) (btype : Option (List Char)) :
    Except PyErr Unit × Multi R × Heap R :=
  match band with
  | none => (.error .valueError, m, w)
  | some i =>
    let bt : Except PyErr (List Char) := match btype with
      | some t => .ok t
      | none => (guessBtypes [delta]).map fun l => l.headD []
    match bt with
    | .error e => (.error e, m, w)
    | .ok t => match signOfType t with
      | .error e => (.error e, m, w)
      | .ok s => (.ok (), { m with ids := m.ids ++ [i], deltas := m.deltas ++ [delta] }, w.set i { w i with sign := s })

/-- the loop of `__init__`, bandlib.py:464-465 -/
def appendAll : Multi R → Heap R → List (Option Nat × R × List Char) → Except PyErr Unit × Multi R × Heap R
  | m, w, [] => (.ok (), m, w)
  | m, w, (b, d, t) :: xs => match m.append w b d (some t) with
    | (.error e, m', w') => (.error e, m', w')
    | (.ok (), m', w') => appendAll m' w' xs

/-- `MultiBands(bands, deltas, btypes)`, bandlib.py:435-465: a type list of length one serves all bands; otherwise the three
lists are zipped, so that a short type list drops bands -/
def construct (w : Heap R) (bands : List (Option Nat)) (deltas : List R) (btypes : Option (List (List Char))) :
    Except PyErr (Multi R) × Heap R :=
  if bands.length ≠ deltas.length then (.error .valueError, w)
  else
    let bt : Except PyErr (List (List Char)) := match btypes with
      | none => guessBtypes deltas
      | some [t] => .ok (List.replicate bands.length t)
      | some ts => .ok ts
    match bt with
    | .error e => (.error e, w)
    | .ok ts => match appendAll ⟨[], [], none⟩ w (bands.zip (deltas.zip ts)) with
      | (.ok (), m, w') => (.ok m, w')
      | (.error e, _, w') => (.error e, w')

/-- one turn of the loop of `a.extend(b)` with `a ≠ b`, bandlib.py:505-518; `lists` are those of the other object -/
def extendOther (m : Multi R) (w : Heap R) : List (Nat × R) → Except PyErr Unit × Multi R × Heap R
  | [] => (.ok (), m, w)
  | (i, d) :: xs => match m.append w (some i) d (some [if 0 < (w i).sign then 'V' else 'C']) with
    | (.error e, m', w') => (.error e, m', w')
    | (.ok (), m', w') => extendOther m' w' xs

/-- `a.extend(a)`: the iterators of `zip` read the lists that the loop appends to; `pos` is their position.  One turn of the
loop: `none` when the loop is over. -/
def extendSelfStep (pos : Nat) (m : Multi R) (w : Heap R) : Option (Except PyErr Unit × Multi R × Heap R) :=
  match m.ids[pos]?, m.deltas[pos]? with
  | some i, some d => some (m.append w (some i) d (some [if 0 < (w i).sign then 'V' else 'C']))
  | _, _ => none

/-- `n` turns of that loop: `none` if it has ended (normally or with an error) before -/
def extendSelf : Nat → Multi R → Heap R → Option (Nat × Multi R × Heap R)
  | 0, m, w => some (0, m, w)
  | n + 1, m, w => match extendSelf n m w with
    | none => none
    | some (pos, m', w') => match extendSelfStep pos m' w' with
      | some (.ok (), m'', w'') => some (pos + 1, m'', w'')
      | _ => none

end

end TEflow.Bandlib
