import Verif.Fts.Eigen

/-!
# Analyzers for derivatives of the free energy

Source: `/repo/src/rpc/fts/analyzer/{ChiDerivative,ConcentrationDerivative,PerturbationDerivative}.tpp` (the
classes of `rpg` compute the same). Numbers are real; `nMonomer = 2` is checked by the first two classes.
-/

set_option autoImplicit false

namespace Verif.Ana

open Verif.Fts

noncomputable section

variable {m n : Nat}

/-- `fieldHamiltonian_` of `Simulator::computeHamiltonian`, `Simulator.tpp:253-281`. -/
def fieldHam (vSystem vMonomer : ℝ) (e : Eig m) (wc : Fts.Flds m n) : ℝ :=
  let HW := accum m (fun j => accum n (fun i =>
    (-(1 / 2) * nM m / e.val j.castSucc) * (wc j.castSucc i - e.sc j.castSucc)
      * (wc j.castSucc i - e.sc j.castSucc)) 0) 0
  let HW := HW / (n : ℝ)
  let HW := HW + 1 / 2 * e.sc (Fin.last m)
  vSystem / vMonomer * HW

/-- `ChiDerivative::compute`, `ChiDerivative.tpp:44-83`, from the stored field Hamiltonian and the present
interaction parameter and `sc(1)`. -/
def chiDerivative (vSystem vMonomer : ℝ) (n : Nat) (chi fieldH sc1 : ℝ) : ℝ :=
  let nMonomerSystem := vSystem / vMonomer
  let hField := fieldH / nMonomerSystem
  let dfdchi := -(hField - 1 / 2 * sc1) / chi + 1 / 4
  let dfdchi := dfdchi * nMonomerSystem
  dfdchi + (n : ℝ) / (2 * chi)

/-- `ConcentrationDerivative::compute`, `ConcentrationDerivative.tpp:44-75`. -/
def concentrationDerivative (vMonomer : ℝ) (n : Nat) (h : ℝ) : ℝ :=
  let dfdc := h * vMonomer
  let Hh := (n : ℝ) / 2 * vMonomer
  dfdc - Hh

/-- Total Hamiltonian with an Einstein crystal perturbation, `Simulator.tpp:283-290`. -/
def totalHam (vSystem vMonomer : ℝ) (species : List Spec) (e : Eig m) (wc : Fts.Flds m n)
    (pert : Option (ℝ × (Fin m → ℝ) × Fts.Flds m n)) : ℝ :=
  let h := hamiltonianF vSystem vMonomer species e wc
  match pert with
  | none => h
  | some (lam, eps, wc0) => h + ecPerturbation lam (ecHamiltonian vSystem vMonomer eps wc wc0) h

end

end Verif.Ana
