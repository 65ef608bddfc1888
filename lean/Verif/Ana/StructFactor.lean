import Verif.Basic
import Verif.Solver.Dft

/-!
# Model of the structure factor analyzer

Source: `/repo/src/rpc/fts/analyzer/BinaryStructureFactorGrid.tpp` (the functions in `/repo/src/rpg` are the same).
Numbers are elements of an ordered field without rounding. Accumulators are those of `Verif.Ana.Model` (C103): here
the average over samples is an input.
-/

set_option autoImplicit false

namespace Verif.Ana

open Verif.Solver

noncomputable section

variable {m n : Nat} {N : Fin (m + 1) → ℕ} [∀ d, NeZero (N d)]

/-- `W-`, `sample`, lines 133-135. -/
def wMinus (w0 w1 : Fin n → ℝ) : Fin n → ℝ := fun i => (w0 i - w1 i) / 2

/-- Value passed to the accumulator of wave `k`, `sample`, lines 137-145. -/
def sampleValue (en : Fin n ≃ Grid N) (w0 w1 : Fin n → ℝ) (k : Half N) : ℝ :=
  Complex.normSq (r2c en (wMinus w0 w1) k)

/-- `computeStructureFactor`, lines 150-166, for one wave. -/
def structureFactor (vSystem vMonomer chi average : ℝ) : ℝ :=
  let n := vSystem / vMonomer
  let s := n / (chi * chi) * average - 1 / (2 * chi)
  s / vMonomer

end

section Shells

variable {K : Type} [Field K] [LinearOrder K]

/-- `SMap[q] += s` for a `std::map`, a list of keys and values with increasing keys. -/
def mapAdd (q s : K) : List (K × K) → List (K × K)
  | [] => [(q, s)]
  | (q', t) :: l =>
    if q < q' then (q, s) :: (q', t) :: l
    else if q = q' then (q', t + s) :: l
    else (q', t) :: mapAdd q s l

/-- Sums for equal magnitude, `averageStructureFactor`, lines 179-190. A wave is a pair of magnitude `qList_[i]` and
value `structureFactors_[i]`. -/
def sumMap (waves : List (K × K)) : List (K × K) := waves.foldl (fun m w => mapAdd w.1 w.2 m) []

/-- Division by the number of waves of that magnitude, lines 192-198. -/
def meanMap (waves : List (K × K)) : List (K × K) :=
  (sumMap waves).map fun e => (e.1, e.2 / ((waves.countP fun w => w.1 = e.1 : Nat) : K))

/-- Loop over the map and last batch, lines 200-221. The keys that are stored in `averageSMap_` increase. -/
def mergeLoop (tol : K) : List (K × K) → K → K → Nat → List (K × K)
  | [], currentq, sumS, count => [(currentq, sumS / (count : K))]
  | (key, s) :: l, currentq, sumS, count =>
    if |key - currentq| ≤ tol then mergeLoop tol l currentq (sumS + s) (count + 1)
    else (currentq, sumS / (count : K)) :: mergeLoop tol l key s 1

/-- `averageStructureFactor`, lines 168-222, for an empty `averageSMap_`. Without waves, `SMap.begin()` is
dereferenced although the map is empty. -/
def averageShells (waves : List (K × K)) : Res (List (K × K)) :=
  match meanMap waves with
  | [] => .ub
  | (q, s) :: l => .ok (mergeLoop (1 / 100000) l q s 1)

end Shells

end Verif.Ana
