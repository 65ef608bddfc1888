import Verif.Fts.BalanceProps
import Mathlib.Probability.Distributions.Gaussian.Real
import Mathlib.MeasureTheory.Constructions.Pi

/-!
# Model of a Monte-Carlo simulation as a random process

Sources: `/repo/src/rpc/fts/montecarlo/{McSimulator,McMoveManager,McMove,RealMove,ForceBiasMove}.tpp`.

The state is the exchange components of the fields. Energy and forces are functions of the state, and so is
the convergence of the compressor: that the pressure field found does not depend on the initial guess is a
simplification. `Random::drawFrom` (Util) returns index `j` with probability `p_j`, `Random::gaussian` independent
standard normal numbers, `Random::metropolis(w)` is true iff a uniform number of `[0,1)` is less than `w`.
-/

set_option autoImplicit false

namespace Verif.Fts

open MeasureTheory ProbabilityTheory
open scoped ENNReal

noncomputable section

variable {m n M : Nat}

/-- What a simulation computes from the exchange components: Hamiltonian, forces, and the states for which the
compressor converges. -/
structure Land (m n : Nat) where
  H : Comps m n → ℝ
  dc : Comps m n → Comps m n
  good : Set (Comps m n)

/-- A move with its parameter. -/
inductive Kind where
  | real (sigma : ℝ)
  | forceBias (mobility : ℝ)

/-- `attemptMove`, `RealMove.tpp:79-111`, `ForceBiasMove.tpp:133-161`. -/
def Kind.displacement (vSystem : ℝ) (P : Land m n) : Kind → Comps m n → Comps m n → Comps m n
  | .real sigma, _, g => realDisplacement sigma g
  | .forceBias mobility, x, g => fbDisplacement mobility vSystem (P.dc x) g

/-- The argument of `metropolis`, `McMove.tpp:142-143`, `ForceBiasMove.tpp:194-214`; `d` is the displacement. -/
def Kind.weight (vSystem : ℝ) (P : Land m n) : Kind → Comps m n → Comps m n → ℝ
  | .real _, x, d => Real.exp (-(P.H (x + d) - P.H x))
  | .forceBias mobility, x, d =>
    Real.exp (fbBias mobility vSystem (P.dc x) (P.dc (x + d)) d - (P.H (x + d) - P.H x))

/-- `McMove::move`, `McMove.tpp:85-156`, and `ForceBiasMove::move`: the next state, `none` if the compressor fails
(then the old state is restored). -/
def Kind.step (vSystem : ℝ) (P : Land m n) (k : Kind) (x g : Comps m n) (u : ℝ) : Option (Comps m n) :=
  open Classical in
  let d := k.displacement vSystem P x g
  if x + d ∈ P.good then some (if u < k.weight vSystem P x d then x + d else x) else none

/-- Law of the Gaussian random numbers. -/
def gauss (m n : Nat) : Measure (Comps m n) := Measure.pi fun _ => Measure.pi fun _ => gaussianReal 0 1

/-- Law of a uniform random number. -/
def unif : Measure ℝ := volume.restrict (Set.Ico 0 1)

/-- Probabilities of moves, `McMoveManager.tpp:53-69`. -/
def moveProb (wt : Fin M → ℝ) (j : Fin M) : ℝ := wt j / accum M wt 0

/-- Expected value of `f` after one turn of the loop of `McSimulator::simulate` (lines 181-209) from state `x`; a
failed move leaves the state and has the value `fail`. -/
def expect (vSystem : ℝ) (P : Land m n) (moves : Fin M → Kind) (wt : Fin M → ℝ) (f : Comps m n → ℝ≥0∞)
    (fail : Comps m n → ℝ≥0∞) (x : Comps m n) : ℝ≥0∞ :=
  ∑ j, ENNReal.ofReal (moveProb wt j) * ∫⁻ g, ∫⁻ u, ((((moves j).step vSystem P x g u).map f).getD (fail x)) ∂unif
    ∂gauss m n

/-- Expected value of `f` at the next state seen by the analyzers, `McSimulator.tpp:181-209`: `iStep` is incremented
and analyzers sample only after a move that did not fail. -/
def observe (vSystem : ℝ) (P : Land m n) (moves : Fin M → Kind) (wt : Fin M → ℝ) (f : Comps m n → ℝ≥0∞)
    (x : Comps m n) : ℝ≥0∞ :=
  ∑' r : Nat, expect vSystem P moves wt (fun _ => 0) (fun _ => 1) x ^ r * expect vSystem P moves wt f (fun _ => 0) x

end

end Verif.Fts
