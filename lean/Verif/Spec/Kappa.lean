import Mathlib.Analysis.SpecialFunctions.Pow.Real
import Mathlib.Analysis.SpecialFunctions.Trigonometric.Basic
import Mathlib.Analysis.SpecialFunctions.Log.Basic

/-! # The documented formulas of `kappa.py`, in SI units

Written from the docstrings alone (`ω` in rad/s, lengths in m, masses in kg, rates in 1/s). -/

open Real

namespace TEflow.KappaSpec

noncomputable section

/-- Boltzmann constant, J/K -/
def kB : ℝ := 1380649 / 10 ^ 29
/-- reduced Planck constant, J s -/
def hbar : ℝ := 1054571817 / 10 ^ 43
/-- elementary charge, C -/
def qe : ℝ := 1602176634 / 10 ^ 28
/-- electron mass, kg -/
def me : ℝ := 91093837015 / 10 ^ 41
/-- neutron mass, kg -/
def neutron : ℝ := 167492749804 / 10 ^ 38
/-- atomic mass unit, kg -/
def amu : ℝ := 166053906660 / 10 ^ 38

/-- three-phonon scattering with the mass unit `M0` -/
def threePhonon (M0 A gm vs Va Ma Theta w T : ℝ) : ℝ :=
  A * (kB * Va ^ (1 / 3 : ℝ) * gm ^ 2) / (M0 * Ma * vs ^ 3) * w ^ 2 * T * exp (-(Theta / (3 * T)))

/-- point defects -/
def pointDefect (vs Va G w : ℝ) : ℝ := Va * G / (4 * π * vs ^ 3) * w ^ 4

/-- grain boundaries -/
def grainBoundary (alpha vs L : ℝ) : ℝ := alpha * (vs / L)

/-- nanoparticles: geometrical and Rayleigh cross sections in series -/
def nanoparticles (N1 vs R D0 D1 Y0 Y1 alpha w : ℝ) : ℝ :=
  let geometrical := 2 * π * R ^ 2
  let rayleigh := 16 / 9 * π * R ^ 2 *
    (alpha ^ 2 / 4 * ((D1 - D0) / D0) ^ 2 + 3 * alpha ^ 8 * ((Y1 - Y0) / Y0) ^ 2) * (w * R / vs) ^ 4
  vs * (geometrical⁻¹ + rayleigh⁻¹)⁻¹ * N1

/-- dislocation cores -/
def dislocationCore (alpha Nd Va vs w : ℝ) : ℝ := alpha * Nd * (Va ^ (4 / 3 : ℝ) / vs ^ 2) * w ^ 3

/-- dislocation strain fields -/
def dislocationStrain (alpha F Nd Bd gm w : ℝ) : ℝ :=
  2 ^ (11 / 2 : ℝ) / 3 ^ (7 / 2 : ℝ) * alpha * F * Nd * Bd ^ 2 * gm ^ 2 * w

/-- stacking faults -/
def stackingFaults (alpha Nsf Va vs gm w : ℝ) : ℝ := alpha * Nsf * (Va ^ (2 / 3 : ℝ) / vs) * gm ^ 2 * w ^ 2

/-- electrons: prefactor -/
def electronCoef (Ed md D0 vs : ℝ) : ℝ := (Ed * md) ^ 2 / (2 * π * hbar ^ 3 * D0 * vs)

/-- Ziman's factor; `hw` is the phonon energy, `mv` half the effective mass times the squared sound velocity -/
def ziman (hw recoil mv EF kT : ℝ) : ℝ :=
  1 - kT / hw * log ((1 + exp ((recoil + mv + hw / 2 - EF) / kT)) / (1 + exp ((recoil + mv - hw / 2 - EF) / kT)))

/-! ### Disorder parameter

A sublattice is a list of species `(occupation, mass, radius)`. -/

abbrev Species := ℝ × ℝ × ℝ

/-- `c_i`, the sum of the occupations of a sublattice -/
def content (s : List Species) : ℝ := (s.map fun a => a.1).sum

/-- the average of a property of the species of one sublattice -/
def siteMean (f : Species → ℝ) (s : List Species) : ℝ := (s.map fun a => a.1 * f a).sum

/-- the relative variance of a property on one sublattice, `Γ_{M,i}` and `Γ_{S,i}/α` -/
def siteVar (f : Species → ℝ) (s : List Species) : ℝ :=
  (s.map fun a => a.1 * ((f a - siteMean f s) / siteMean f s) ^ 2).sum

/-- average weighted by the contents of the sublattices -/
def cellAvg (F : List Species → ℝ) (D : List (List Species)) : ℝ :=
  (D.map fun s => content s * F s).sum / (D.map content).sum

def mass (a : Species) : ℝ := a.2.1

def radius (a : Species) : ℝ := a.2.2

/-- `Γ` of a property -/
def disorder (f : Species → ℝ) (D : List (List Species)) : ℝ :=
  cellAvg (fun s => (siteMean mass s / cellAvg (siteMean mass) D) ^ 2 * siteVar f s) D

/-- the configuration entropy in units of `k_B` (with the minus sign the formula in the documentation lacks) -/
def entropy (D : List (List Species)) : ℝ := -(D.map fun s => (s.map fun a => a.1 * log a.1).sum).sum

/-- every occupation divided by the sum over its sublattice -/
def renormalised (D : List (List Species)) : List (List Species) :=
  D.map fun s => s.map fun a => (a.1 / content s, a.2)

end

end TEflow.KappaSpec
