import Verif.Basis.StarProps

/-!
# Model of the phases and normalisation of the waves of a star

Source: `/repo/src/prdc/crystal/Basis.tpp:618-635` (coefficients `exp(i phase)`), `669-872` (phase
conventions) and `874-881` (normalisation).  Simplified: exact complex arithmetic, so real and
imaginary parts below `1.0E-6` or `1.0E-8` are not set to zero; the partner of the first wave is
found directly instead of through `inverseId` (`C42` shows that `inverseId` is the inverse wave).
`csqrt` is `std::sqrt(std::complex)`.
-/

namespace Verif.Stars
open Verif.Crystal

variable {D : Nat}
noncomputable section

/-- `-v` shifted to the mesh. -/
def negSh (d v : Fin D → Int) : Fin D → Int := sh d (fun i => - v i)

/-- Choice of the sign of the square root, `Basis.tpp:760-767`. -/
def pickSign (z : ℂ) : ℂ :=
  if z.re < -1e-4 then -z
  else if |z.re| ≤ 1e-4 then (if z.im < 0 then -z else z)
  else z

/-- A star with `invertFlag == 0`, `Basis.tpp:731-775, 874-881`.  `waves` is the star in the order
of the array. -/
def closedCoefs (csqrt : ℂ → ℂ) (d : Fin D → Int) (waves : List (TWave D)) (cancel : Bool) :
    Res (List (TWave D × ℂ)) :=
  match waves with
  | [] => .ub
  | w0 :: _ =>
    match waves.find? (fun w => decide (w.dft = negSh d w0.bz)) with
    | none => .throw
    | some p =>
      if cancel then .ok (waves.map fun w => (w, 0))
      else
        let snorm : ℂ := ((1 / Real.sqrt waves.length : ℝ) : ℂ)
        let rootCoeff := ex w0.phase
        let partCoeff := ex p.phase / rootCoeff
        if p.dft ≠ w0.dft ∧ ‖partCoeff - 1‖ > 1e-6 then
          .ok (waves.map fun w => (w, ex w.phase / rootCoeff / pickSign (csqrt partCoeff) * snorm))
        else .ok (waves.map fun w => (w, ex w.phase / rootCoeff * snorm))

/-- A pair of stars with `invertFlag` 1 and -1, `Basis.tpp:831-865, 874-881`. -/
def openCoefs (d : Fin D → Int) (waves waves2 : List (TWave D)) (cancel cancel2 : Bool) :
    Res (List (TWave D × ℂ) × List (TWave D × ℂ)) :=
  if waves.length ≠ waves2.length then .throw
  else if cancel ≠ cancel2 then .throw
  else
    match waves with
    | [] => .ub
    | w0 :: _ =>
      match waves2.find? (fun w => decide (w.dft = negSh d w0.bz)) with
      | none => .throw
      | some p =>
        if cancel then .ok (waves.map fun w => (w, 0), waves2.map fun w => (w, 0))
        else
          let snorm : ℂ := ((1 / Real.sqrt waves.length : ℝ) : ℂ)
          let snorm2 : ℂ := ((1 / Real.sqrt waves2.length : ℝ) : ℂ)
          .ok (waves.map fun w => (w, ex w.phase / ex w0.phase * snorm),
            waves2.map fun w => (w, ex w.phase / ex p.phase * snorm2))

end
end Verif.Stars
