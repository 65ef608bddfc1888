import Verif.Loop
import Mathlib.Analysis.SpecialFunctions.Log.Basic

/-!
# Model of `ScftThermoTmpl::compute`

Source: `/repo/src/prdc/system/ScftThermoTmpl.tpp:53-249`. Numbers are real. Fields of `M` monomer
types are arrays of `N` numbers: values on the grid, or components in the symmetry adapted basis.
Species are listed polymers first, then solvents; both have the same formulas.
-/

set_option autoImplicit false

namespace Verif.Thermo

noncomputable section

/-- A polymer or solvent species: volume fraction, chemical potential, length, bead number or
size. -/
structure Spec where
  phi : ℝ
  mu : ℝ
  len : ℝ

/-- Fields of `M` monomer types. -/
abbrev Fields (M N : Nat) := Fin M → Fin N → ℝ

variable {M N : Nat}

/-- `innerProduct` (`Reduce.cpp:80-94`), and the loops over basis functions. -/
def inner (a b : Fin N → ℝ) : ℝ := accum N (fun k => a k * b k) 0

/-- Inputs of `compute`. `basis` is `w().isSymmetric()`; then `N` is the number of basis functions
and no average over the grid is taken. `h = none` without external fields; fields `h` are given in
the same representation as `w` (basis if both are symmetric). -/
structure Input (M N : Nat) where
  species : List Spec
  chi : Fin M → Fin M → ℝ
  basis : Bool
  w : Fields M N
  c : Fields M N
  h : Option (Fields M N)
  phiTot : ℝ

/-- Ideal gas terms, `ScftThermoTmpl.tpp:73-105`. -/
def idealSpecies : List Spec → ℝ → ℝ
  | [], a => a
  | s :: ss, a => idealSpecies ss (if s.phi > 1 / 10 ^ 8 then a + s.phi * (s.mu - 1) / s.len else a)

/-- Division by the mesh size if grid data are used. -/
def average (b : Bool) (N : Nat) (x : ℝ) : ℝ := if b then x else x / (N : ℝ)

/-- `fIdeal_`, `ScftThermoTmpl.tpp:73-140`. -/
def fIdeal (x : Input M N) : ℝ :=
  let temp := accum M (fun i => -inner (x.w i) (x.c i)) 0
  let temp := average x.basis N temp
  idealSpecies x.species 0 + temp / x.phiTot

/-- `fExt_`, `ScftThermoTmpl.tpp:144-165`. -/
def fExt (x : Input M N) : ℝ :=
  match x.h with
  | none => 0
  | some h => average x.basis N (accum M (fun i => inner (h i) (x.c i)) 0) / x.phiTot

/-- `fInter_`, `ScftThermoTmpl.tpp:168-208`: loop over `j ≥ i`. -/
def fInter (x : Input M N) : ℝ :=
  average x.basis N (accum M (fun i => accum M (fun j =>
    if i ≤ j then
      if |x.chi i j| > 1 / 10 ^ 9 then
        if i = j then 1 / 2 * x.chi i j * inner (x.c i) (x.c j)
        else x.chi i j * inner (x.c i) (x.c j)
      else 0
    else 0) 0) 0) / x.phiTot

/-- `fHelmholtz_`. -/
def fHelmholtz (x : Input M N) : ℝ := 0 + fIdeal x + fExt x + fInter x

/-- Chemical potential terms, `ScftThermoTmpl.tpp:215-246`. -/
def pressureSpecies : List Spec → ℝ → ℝ
  | [], a => a
  | s :: ss, a => pressureSpecies ss (if s.phi > 1 / 10 ^ 8 then a + s.mu * s.phi / s.len else a)

/-- `pressure_`, `ScftThermoTmpl.tpp:212-246`. -/
def pressure (x : Input M N) : ℝ := pressureSpecies x.species (-fHelmholtz x)

end

end Verif.Thermo
