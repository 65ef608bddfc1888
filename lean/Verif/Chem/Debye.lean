import Mathlib.Analysis.SpecialFunctions.Exp

/-!
# Model of the Debye functions

Source: `/repo/src/pscf/chem/Debye.cpp`. Real numbers without rounding.
-/

set_option autoImplicit false

namespace Verif.Debye

noncomputable section

/-- `Debye::dt`, `Debye.cpp:17-28`. -/
def dt (ksq length kuhn : ℝ) : ℝ :=
  let x := length * ksq * kuhn * kuhn / 6
  (if x < 1 / 10 ^ 5 then 1 - x * x / 3 else 2 * (Real.exp (-x) - 1 + x) / (x * x)) * (length * length)

/-- `Debye::db`, `Debye.cpp:33-48`. -/
def db (ksq nBead kuhn : ℝ) : ℝ :=
  let y := ksq * kuhn * kuhn / 6
  let x := nBead * y
  if x < 1 / 10 ^ 5 then (1 - x * x / 3) * (nBead * nBead)
  else
    let z := Real.exp (-y)
    let u := 1 - z
    2 * z * (Real.exp (-x) + nBead * u - 1) / (u * u) + nBead

/-- `Debye::et`, `Debye.cpp:53-64`. -/
def et (ksq length kuhn : ℝ) : ℝ :=
  let x := ksq * length * kuhn * kuhn / 6
  (if x < 1 / 10 ^ 5 then 1 - x / 2 + x * x / 6 else (1 - Real.exp (-x)) / x) * length

/-- `Debye::eb`, `Debye.cpp:69-83`. -/
def eb (ksq nBead kuhn : ℝ) : ℝ :=
  let y := ksq * kuhn * kuhn / 6
  let x := nBead * y
  if x < 1 / 10 ^ 5 then (1 - x / 2 + x * x / 6) * nBead
  else
    let z := Real.exp (-y)
    (1 - Real.exp (-x)) / (1 - z)

/-- Contribution of two different blocks of a bead polymer to the correlation function (without the
factor `2 cPolymer`), `IntraCorrelation.tpp:178-225`: `mid` holds the number of beads and statistical
segment length of each intermediate block. -/
def pairBead (ksq nA kuhnA nB kuhnB : ℝ) (mid : List (ℝ × ℝ)) : ℝ :=
  let rsqAB := mid.foldl (fun r c => r + c.1 * c.2 * c.2) (1 / 2 * (kuhnA * kuhnA + kuhnB * kuhnB))
  Real.exp (-rsqAB * ksq / 6) * eb ksq nA kuhnA * eb ksq nB kuhnB

/-- The same for the thread model, `IntraCorrelation.tpp:207-215`. -/
def pairThread (ksq lA kuhnA lB kuhnB : ℝ) (mid : List (ℝ × ℝ)) : ℝ :=
  let rsqAB := mid.foldl (fun r c => r + c.1 * c.2 * c.2) 0
  Real.exp (-rsqAB * ksq / 6) * et ksq lA kuhnA * et ksq lB kuhnB

end

end Verif.Debye
