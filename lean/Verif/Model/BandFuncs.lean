import Mathlib.Analysis.SpecialFunctions.Pow.Real
import Mathlib.Analysis.SpecialFunctions.Trigonometric.Basic
import Mathlib.Analysis.SpecialFunctions.Log.Basic
import Mathlib.Algebra.BigOperators.Group.Finset.Basic
import Verif.Model.Band

/-! # The band functions of `bandlib.py`: quadrature, parabolic, Kane and linear bands, `RSPB`, `bandline`, `dosline`

Real arithmetic.  `np.power(x, 3/2)` is the real power, `np.sqrt` the real square root; both give NaN for negative arguments
in the program and some real here, so that theorems about them assume the sign.  Arrays are modelled pointwise (the functions
are applied elementwise by numpy). -/

open Real

namespace TEflow.Bandlib

/-! ## The quadrature -/

section
variable {R : Type} [Field R]

/-- trapezoid values `R[(i,0)]` of `scipy.integrate.romb` for `2^k+1` samples; `h = 2^k·dx` at the start and is halved in
every turn; turn `i+1` adds the samples at the odd multiples of `2^k / 2^(i+1)` (scipy is a dependency: its published
algorithm, called at bandlib.py:118) -/
def rombT (k : Nat) (y : Nat → R) (dx : R) : Nat → R
  | 0 => (y 0 + y (2 ^ k)) / 2 * (2 ^ k * dx)
  | i + 1 => 1 / 2 * (rombT k y dx i +
      2 ^ k * dx / 2 ^ i * ((List.range (2 ^ i)).map fun j => y (2 ^ (k - (i + 1)) * (2 * j + 1))).sum)

/-- the extrapolated values `R[(i,j)]` of `scipy.integrate.romb` -/
def rombR (T : Nat → R) : Nat → Nat → R
  | 0, i => T i
  | j + 1, i => rombR T j i + (rombR T j i - rombR T j (i - 1)) / (4 ^ (j + 1) - 1)

/-- `romb(y, axis=0)` with `2^k+1` samples and `dx=1` -/
def romb (k : Nat) (y : Nat → R) : R := rombR (rombT k y 1) k k

end

noncomputable section

/-- `np.linspace(0, width, nbins+1)`, bandlib.py:107 -/
def tpAt (width : ℝ) (nbins : Nat) (i : Nat) : ℝ := width * i / nbins

/-- the reduced energy at `t`, bandlib.py:112 -/
def xOf (t : ℝ) : ℝ := 3 * log (1 / t - 1)

/-- the weight at `t` without the power of `xp`, bandlib.py:116-117 -/
def wOf (t : ℝ) : ℝ := 3 * (t * (1 - t)) ^ 2 / (t ^ 3 + (1 - t) ^ 3) ^ 2

/-- `width`, bandlib.py:105 -/
def widthOf (EF T : ℝ) : ℝ := 1 / (1 + exp (-(EF / (kB * T)) / 3))

/-- `xp`, bandlib.py:109-112: the ends hold `-Y + eps` -/
def xpAt (EF T : ℝ) (nbins : Nat) (i : Nat) : ℝ :=
  if i = 0 ∨ i = nbins then -(EF / (kB * T)) + 1 / 10 ^ 10 else xOf (tpAt (widthOf EF T) nbins i)

/-- the energies at which the band function is evaluated, bandlib.py:113 -/
def energyAt (EF T : ℝ) (i : Nat) : ℝ := kB * T * xpAt EF T 64 i + EF

/-- `romb_dfx(func, EF, T, k)` with the default `ndiv=6`, `eps=1E-10`, bandlib.py:69-118 -/
def rombDfx (func : ℝ → ℝ → ℝ) (k : Nat) (EF T : ℝ) : ℝ :=
  romb 6 (fun i => func (energyAt EF T i) T * (xpAt EF T 64 i ^ k * wOf (tpAt (widthOf EF T) 64 i))) *
    widthOf EF T / 64

/-! ## Band models -/

/-- `m_e`, bandlib.py:64 -/
def me : ℝ := 91093837015 / 10 ^ 41
/-- `hbar`, bandlib.py:65 -/
def hbar : ℝ := 1054571817 / 10 ^ 43

/-- the three functions of a band (with `use_idos`), bandlib.py:192-227 -/
structure BandFns where
  dos : ℝ → ℝ
  idos : ℝ → ℝ
  trs : ℝ → ℝ → ℝ
  /-- absent for `LinearBand` -/
  hall : Option (ℝ → ℝ → ℝ)

/-- the band object: `_N` (by `idos`), `_K_n`, `_CCRH` without its sign, bandlib.py:208-227 -/
def BandFns.leaf (f : BandFns) (sign : ℝ) : Leaf ℝ where
  sign := sign
  n := fun EF T => rombDfx (fun E _ => f.idos E) 0 EF T
  k := fun n EF T => rombDfx f.trs n EF T
  h := f.hall.map fun h => fun EF T => rombDfx h 0 EF T

/-- the constructor arguments of `APSSPB`, bandlib.py:739-742 -/
structure Spb where
  m_d : ℝ := 1
  sigma0 : ℝ := 1
  Kmass : ℝ := 1

/-- `APSSPB.dos`, bandlib.py:749-760 -/
def Spb.dos (b : Spb) (E : ℝ) : ℝ :=
  1 / 10 ^ 25 * ((2 * b.m_d * me * qe) ^ (3 / 2 : ℝ) / (2 * π * π * hbar ^ 3)) * √E

/-- `APSSPB.idos`, bandlib.py:762-773 -/
def Spb.idos (b : Spb) (E : ℝ) : ℝ :=
  1 / 10 ^ 25 * ((2 * b.m_d * me * qe * E) ^ (3 / 2 : ℝ) / (3 * π * π * hbar ^ 3))

/-- `APSSPB.trs`, bandlib.py:775-784 -/
def Spb.trs (b : Spb) (E T : ℝ) : ℝ := b.sigma0 * E / (kB * T)

/-- `Kstar`, bandlib.py:806-818, 1073-1077 -/
def kstar (K : ℝ) : ℝ := 3 * K * (K + 2) / (2 * K + 1) ^ 2

/-- `N0` in `hall`, bandlib.py:802, 1068 -/
def hallN0 (m_d T : ℝ) : ℝ := (2 * m_d * me * kB * qe * T) ^ (3 / 2 : ℝ) / (2 * π * π * hbar ^ 3)

/-- the factor in `hall`, bandlib.py:803, 1069 -/
def hallFactor (m_d sigma0 T : ℝ) : ℝ := sigma0 ^ 2 / (2 / 3 * (1 / 10 ^ 6) * hallN0 m_d T * qe)

/-- `APSSPB.hall`, bandlib.py:786-804 -/
def Spb.hall (b : Spb) (E T : ℝ) : ℝ := kstar b.Kmass * hallFactor b.m_d b.sigma0 T * √(E / (kB * T))

/-- the band functions of `APSSPB` -/
def Spb.fns (b : Spb) : BandFns := ⟨b.dos, b.idos, b.trs, some b.hall⟩

/-- `_UWT_to_sigma0`, bandlib.py:735, 1027, 1303 -/
def uwtToSigma0 : ℝ := 4020521639724753 / 10 ^ 15

/-- `_sigma0_to_PFmax`, bandlib.py:733 -/
def sigma0ToPFmax : ℝ := 3015137550508442 / 10 ^ 17

/-- `_Yita_opt`, bandlib.py:732 -/
def yitaOpt : ℝ := 66812 / 100000

/-- `UWT`, bandlib.py:820-837, 1079-1082 -/
def uwtOf (sigma0 : ℝ) : ℝ := sigma0 / uwtToSigma0

/-- `APSSPB.from_UWT`, bandlib.py:883-907 -/
def Spb.fromUWT (m_d UWT Kmass : ℝ) : Spb := ⟨m_d, uwtToSigma0 * UWT, Kmass⟩

/-- `m2 or m1`, bandlib.py:875, 1108 -/
def orMass (m2 : Option ℝ) (m1 : ℝ) : ℝ :=
  match m2 with
  | none => m1
  | some m => if m = 0 then m1 else m

/-- the values computed in `from_DP`, bandlib.py:875-881, 1108-1114: `m_d`, `sigma0`, `Kmass` (`np.cbrt` is written as a real
power: positive masses) -/
def dpValues (m1 : ℝ) (m2 : Option ℝ) (Nv Cii Ed : ℝ) : ℝ × ℝ × ℝ :=
  let m2 := orMass m2 m1
  let m_c := 3 / (1 / m1 + 2 / m2)
  ((Nv * Nv * (m1 * m2 * m2)) ^ (1 / 3 : ℝ), 24566655370009886 / 10 ^ 14 * (Nv * Cii) / (m_c * Ed * Ed), m1 / m2)

/-- `APSSPB.from_DP`, bandlib.py:848-881 -/
def Spb.fromDP (m1 : ℝ) (m2 : Option ℝ) (Nv Cii Ed : ℝ) : Spb :=
  let v := dpValues m1 m2 Nv Cii Ed
  ⟨v.1, v.2.1, v.2.2⟩

/-- the constructor arguments of `APSSKB`, bandlib.py:1028-1035 -/
structure Skb where
  m_d : ℝ := 1
  sigma0 : ℝ := 1
  Eg : ℝ := 1
  Kmass : ℝ := 1

/-- `APSSKB(m_d, sigma0, Eg, Kmass)`, bandlib.py:1028-1035 -/
def Skb.make (m_d sigma0 Eg Kmass : ℝ) : Except PyErr Skb :=
  if 0 < Eg then .ok ⟨m_d, sigma0, Eg, Kmass⟩ else .error .valueError

/-- `APSSKB.dos`, bandlib.py:1042-1048 -/
def Skb.dos (b : Skb) (E : ℝ) : ℝ :=
  1 / 10 ^ 25 * ((2 * b.m_d * me * qe) ^ (3 / 2 : ℝ) / (2 * π * π * hbar ^ 3)) * √E *
    (√(1 + E / b.Eg) * (1 + 2 * E / b.Eg))

/-- `APSSKB.idos`, bandlib.py:1050-1056 -/
def Skb.idos (b : Skb) (E : ℝ) : ℝ :=
  1 / 10 ^ 25 * (2 * b.m_d * me * qe * E * (1 + E / b.Eg)) ^ (3 / 2 : ℝ) / (3 * π * π * hbar ^ 3)

/-- `APSSKB.trs`, bandlib.py:1058-1062 -/
def Skb.trs (b : Skb) (E T : ℝ) : ℝ :=
  b.sigma0 * E / (kB * T) * (3 * (1 + E / b.Eg) / ((1 + 2 * E / b.Eg) ^ 2 + 2))

/-- `APSSKB.hall`, bandlib.py:1064-1071 -/
def Skb.hall (b : Skb) (E T : ℝ) : ℝ :=
  kstar b.Kmass * hallFactor b.m_d b.sigma0 T * √(E / (kB * T)) *
    (9 * √(1 + E / b.Eg) / ((1 + 2 * E / b.Eg) ^ 2 + 2) ^ 2)

/-- the band functions of `APSSKB` -/
def Skb.fns (b : Skb) : BandFns := ⟨b.dos, b.idos, b.trs, some b.hall⟩

/-- `APSSKB.from_DP`, bandlib.py:1084-1114 -/
def Skb.fromDP (m1 : ℝ) (m2 : Option ℝ) (Nv Cii Ed Eg : ℝ) : Except PyErr Skb :=
  let v := dpValues m1 m2 Nv Cii Ed
  Skb.make v.1 v.2.1 Eg v.2.2

/-- `APSSKB.from_UWT`, bandlib.py:1116-1137 -/
def Skb.fromUWT (m_d UWT Eg Kmass : ℝ) : Except PyErr Skb := Skb.make m_d (uwtToSigma0 * UWT) Eg Kmass

/-- `LinearBand`, bandlib.py:1234-1236; `vF` is already the absolute value -/
structure Lin where
  vF : ℝ := 1
  sigma0 : ℝ := 1

/-- `LinearBand(vF, sigma0)`, bandlib.py:1234-1236 -/
def Lin.make (vF sigma0 : ℝ) : Lin := ⟨|vF|, sigma0⟩

/-- `LinearBand.dos`, bandlib.py:1243-1248 -/
def Lin.dos (b : Lin) (E : ℝ) : ℝ := 1 / 10 ^ 25 * ((1 / π) ^ 2 * (qe / (b.vF * 10 ^ 5 * hbar)) ^ 3) * E ^ 2

/-- `LinearBand.idos`, bandlib.py:1250-1256 -/
def Lin.idos (b : Lin) (E : ℝ) : ℝ := (qe * E / (b.vF * hbar)) ^ 3 / (3 * 10 ^ 40 * π ^ 2)

/-- `LinearBand.trs`, bandlib.py:1258-1261 -/
def Lin.trs (b : Lin) (_E _T : ℝ) : ℝ := b.sigma0

/-- the band functions of `LinearBand` -/
def Lin.fns (b : Lin) : BandFns := ⟨b.dos, b.idos, b.trs, none⟩

/-! ## `valuate` -/

/-- the value of a property method on plain numbers (`None` and errors as 0: not reached here) -/
def Leaf.val (b : Leaf ℝ) (p : TProp) (EF T : ℝ) : ℝ :=
  match b.prop p (some (EF, T)) with
  | .ok (some v) => v
  | _ => 0

/-- the block for `dataC`, bandlib.py:969-976, 1191-1197 -/
def valuateC (L T : ℝ) (dataC dataK : Option ℝ) (Cref : ℝ) : List (String × ℝ) :=
  match dataC with
  | none => []
  | some c =>
    ("Ke", 1 / 10 ^ 6 * L * (c * T)) ::
      ((match dataK with
        | none => []
        | some k => [("Kp", k - 1 / 10 ^ 6 * L * (c * T))]) ++
      [("sigma0", c / Cref), ("UWT", c / Cref / uwtToSigma0)])

/-- `APSSPB.valuate` at one point, bandlib.py:909-995; `solve` is `solve_EF('S', ·, ·)` of the reference band
`APSSPB(Kmass=Kmass)` (a root finder of scipy, not modelled) -/
def Spb.valuate (solve : ℝ → ℝ → ℝ) (S : ℝ) (T C N K : Option ℝ) (hall : Bool) (Kmass : ℝ) : List (String × ℝ) :=
  let ref := (Spb.fns ⟨1, 1, Kmass⟩).leaf 1
  match T with
  | none => [("L", ref.val .L (solve S (1 / kB)) (1 / kB))]
  | some T =>
    let EF := solve S T
    let L := ref.val .L EF T
    let pN : TProp := if hall then .NH else .N
    ("L", L) :: (valuateC L T C K (ref.val .C EF T) ++
      (match C with
        | none => []
        | some c => [("PFmax", c / ref.val .C EF T * sigma0ToPFmax)]) ++
      (match N with
        | none => []
        | some n => [("m_d", (n / ref.val pN EF T) ^ (2 / 3 : ℝ)),
            ("Nopt", n / ref.val pN EF T * ref.val pN (yitaOpt * kB * T) T)]))

/-- `APSSKB.valuate` at one point, bandlib.py:1139-1210 -/
def Skb.valuate (solve : ℝ → ℝ → ℝ) (S T : ℝ) (C N K : Option ℝ) (Eg : ℝ) (hall : Bool) (Kmass : ℝ) :
    Except PyErr (List (String × ℝ)) := do
  let skb ← Skb.make 1 1 Eg Kmass
  let ref := skb.fns.leaf 1
  let EF := solve S T
  let L := ref.val .L EF T
  let pN : TProp := if hall then .NH else .N
  return ("L", L) :: (valuateC L T C K (ref.val .C EF T) ++
    (match N with
      | none => []
      | some n => [("m_d", (n / ref.val pN EF T) ^ (2 / 3 : ℝ))]))

/-! ## `RSPB` -/

namespace Rspb

/-- `RSPB.N0`, bandlib.py:1295 -/
def N0 : ℝ := 25094122298407914 / 10 ^ 16
/-- `RSPB.S0`, bandlib.py:1296 -/
def S0 : ℝ := 8617333262145179 / 10 ^ 14
/-- `RSPB.L0`, bandlib.py:1297 -/
def L0 : ℝ := 7425843255087367 / 10 ^ 16
/-- `RSPB.C0`, bandlib.py:1298 -/
def C0 : ℝ := 4020521639724753 / 10 ^ 15
/-- `RSPB._Nr_opt`, bandlib.py:1300 -/
def NrOpt : ℝ := 1255 / 1000
/-- `RSPB._UWT_to_PFmax`, bandlib.py:1302 -/
def uwtToPFmax : ℝ := 11995599604650432 / 10 ^ 17

/-- `RSPB.Nmr`, bandlib.py:1305-1308 -/
def Nmr (Nr factor m_d T : ℝ) : ℝ := factor * (m_d * T / 300) ^ (3 / 2 : ℝ) * Nr
/-- `RSPB.Sr`, bandlib.py:1310-1313 -/
def Sr (Nr factor delta : ℝ) : ℝ := factor * log (1 + delta + exp 2 / Nr)
/-- `RSPB.iSr`, bandlib.py:1315-1318 -/
def iSr (s factor delta : ℝ) : ℝ := exp 2 / (exp (s / factor) - 1 - delta)
/-- `RSPB.Ur`, bandlib.py:1320-1323 -/
def Ur (Nr factor : ℝ) : ℝ := factor * (1 + Nr / 2) ^ (-1 / 3 : ℝ)
/-- `RSPB.iUr`, bandlib.py:1325-1328 -/
def iUr (u factor : ℝ) : ℝ := 2 * ((factor / u) ^ 3 - 1)
/-- `RSPB.Lr`, bandlib.py:1330-1334 -/
def Lr (Nr factor : ℝ) : ℝ :=
  factor * (2 + (π * π / 3 - 2) / (1 + (Nr / π / 2) ^ (-3 / 2 : ℝ)) ^ (2 / 3 : ℝ))
/-- `RSPB.iLr`, bandlib.py:1336-1340 -/
def iLr (l factor : ℝ) : ℝ :=
  2 * π * (((π * π / 3 - 2) / (l / factor - 2)) ^ (3 / 2 : ℝ) - 1) ^ (-2 / 3 : ℝ)
/-- `RSPB.LxS`, bandlib.py:1342-1360 -/
def LxS (s Sfactor Lfactor : ℝ) (dt : Option ℝ) (delta : ℝ) : ℝ :=
  let s := s / Sfactor
  let l := match dt with
    | none => Lr (iSr s 1 delta) 1
    | some dt =>
      let ksi := 1 / (2 / 3 * dt + 1)
      let p := -33 / 100 + 69 / 10 * ksi - 778 / 100 * ksi ^ 2 + 275 / 100 * ksi ^ 3
      let q := -14 / 100 + 408 / 100 * ksi - 213 / 100 * ksi ^ 2
      let l0 := 2 - 2 * ksi + ksi ^ 2
      (π * π / 3 + p * s + l0 * s ^ 2) / (1 + q * s + s ^ 2)
  l * Lfactor
/-- `RSPB.Cr`, bandlib.py:1362-1368 -/
def Cr (Nr factor UWT : ℝ) : ℝ := factor * UWT * Nr * Ur Nr 1
/-- `RSPB.PFr`, bandlib.py:1370-1376 -/
def PFr (Nr factor UWT delta : ℝ) : ℝ := factor * Cr Nr 1 UWT * Sr Nr 1 delta ^ 2

/-- the block for `dataC`, bandlib.py:1429-1434 -/
def valuateC (Nr : ℝ) (C : Option ℝ) : List (String × ℝ) :=
  match C with
  | none => []
  | some c =>
    [("UWT", c / Cr Nr C0 1), ("PFmax", c / Cr Nr C0 1 * uwtToPFmax), ("sigma0", c / Cr Nr C0 1 * uwtToSigma0)]

/-- the body of the block for `dataC`, `dataT` and `dataN`, bandlib.py:1437-1442 -/
def valuateFull (Nr c t n : ℝ) (K : Option ℝ) : List (String × ℝ) :=
  ("Ke", 1 / 10 ^ 6 * Lr Nr L0 * c * t) ::
    ((match K with
      | none => []
      | some k => [("Kp", k - 1 / 10 ^ 6 * Lr Nr L0 * c * t)]) ++
    [("m_eff", (n / Nr) ^ (2 / 3 : ℝ) * 300 / t), ("Nopt", NrOpt * N0 * n / Nr)])

/-- the block for `dataC`, `dataT` and `dataN`, bandlib.py:1436-1442 -/
def valuateRest (Nr : ℝ) (C T N K : Option ℝ) : List (String × ℝ) :=
  match C, T, N with
  | some c, some t, some n => valuateFull Nr c t n K
  | _, _, _ => []

/-- `RSPB.valuate` at one point, bandlib.py:1378-1445 -/
def valuate (S : ℝ) (C T N K : Option ℝ) (delta : ℝ) : List (String × ℝ) :=
  ("L", Lr (iSr S S0 delta) L0) :: (valuateC (iSr S S0 delta) C ++ valuateRest (iSr S S0 delta) C T N K)

end Rspb

/-! ## `bandline`, `dosline` -/

/-- `COEF_BAND`, bandlib.py:1474 -/
def coefBand : ℝ := 7619964222971923 / 10 ^ 15

/-- the parabola, bandlib.py:1475 -/
def parabolic (k m_b k0 : ℝ) : ℝ := coefBand * (k - k0) ^ 2 / m_b / 2

/-- `bandline`, bandlib.py:1448-1481 -/
def bandline (k m_b k0 E0 : ℝ) (Eg : Option ℝ) : ℝ :=
  match Eg with
  | none => parabolic k m_b k0 + E0
  | some g => parabolic k m_b k0 / (√(1 / 4 + |parabolic k m_b k0| / g) + 1 / 2) + E0

/-- `COEF_DOS`, bandlib.py:1511 -/
def coefDos : ℝ := 1467959743657925 / 10 ^ 13

/-- `dosline`, bandlib.py:1484-1518 -/
def dosline (E m_d E0 Vcell : ℝ) (Eg : Option ℝ) : ℝ :=
  let energy := max (SignType.sign m_d * (E - E0)) 0
  let coef := Vcell / coefDos * |m_d| ^ (3 / 2 : ℝ)
  match Eg with
  | none => coef * √energy
  | some g => coef * √(E * (1 + E / g)) * (1 + 2 * E / g)

end

end TEflow.Bandlib
