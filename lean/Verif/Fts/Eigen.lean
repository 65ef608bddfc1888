import Verif.Loop
import Verif.Basic
import Mathlib.Analysis.Real.Sqrt

/-!
# Model of the projected chi matrix, field components and Hamiltonian

Source: `/repo/src/rpc/fts/simulator/Simulator.tpp`,
`/repo/src/rpc/fts/perturbation/EinsteinCrystalPerturbation.tpp`.

`nMonomer = m + 1`; numbers are real (no rounding). Fields are functions on `n` grid points. The
eigenvalues and eigenvectors returned by `gsl_eigen_symmv` are inputs.
-/

set_option autoImplicit false

namespace Verif.Fts

noncomputable section

/-- Matrices and vectors of monomer indices. -/
abbrev Mat (m : Nat) := Fin (m + 1) → Fin (m + 1) → ℝ
abbrev MVec (m : Nat) := Fin (m + 1) → ℝ

/-- `double(nMonomer)`. -/
abbrev nM (m : Nat) : ℝ := ((m + 1 : Nat) : ℝ)

/-- Projection matrix, `Simulator.tpp:305-313`. -/
def projP (m : Nat) : Mat m := fun i j => if j = i then -(1 / nM m) + 1 else -(1 / nM m)

/-- `T = chi*P`, `chiP = P*T`, `Simulator.tpp:315-337`. -/
def chiT {m : Nat} (chi : Mat m) : Mat m := fun i j =>
  accum (m + 1) (fun k => chi i k * projP m k j) 0

def chiPM {m : Nat} (chi : Mat m) : Mat m := fun i j =>
  accum (m + 1) (fun k => projP m i k * chiT chi k j) 0

/-- Change of sign so that the first component is not negative, `Simulator.tpp:381-385`,
`390-394`. -/
def flipV {m : Nat} (v : MVec m) : MVec m := if v 0 < 0 then fun j => -v j else v

/-- State of the loop over eigenpairs: pairs stored so far, index and number of null
eigenvalues. -/
structure Sel (m : Nat) where
  pairs : List (ℝ × MVec m)
  iNull : Option (Fin (m + 1))
  nNull : Nat

/-- Loop over eigenpairs, `Simulator.tpp:364-390`. -/
def selLoop {m : Nat} (vals : MVec m) (vecs : Mat m) : List (Fin (m + 1)) → Sel m → Res (Sel m)
  | [], s => .ok s
  | i :: is, s =>
    if |vals i| < 1 / 10 ^ 8 then
      if s.nNull + 1 ≤ 1 then selLoop vals vecs is ⟨s.pairs, some i, s.nNull + 1⟩ else .throw
    else if vals i < 0 then
      selLoop vals vecs is ⟨s.pairs ++ [(vals i, flipV (vecs i))], s.iNull, s.nNull⟩
    else .throw

/-- Normalisation, `Simulator.tpp:404-416`. -/
def normV {m : Nat} (v : MVec m) : MVec m := fun j =>
  v j * √(nM m / accum (m + 1) (fun k => v k * v k) 0)

/-- `chiEvals_`, `chiEvecs_`, `sc_`. -/
structure Eig (m : Nat) where
  val : MVec m
  vec : Mat m
  sc : MVec m

/-- `Simulator::analyzeChi`, `Simulator.tpp:296-457`, given eigenvalues `vals` and eigenvectors
`vecs i` of the projected matrix. -/
def analyze_chi {m : Nat} (chi : Mat m) (vals : MVec m) (vecs : Mat m) : Res (Eig m) :=
  selLoop vals vecs (List.finRange (m + 1)) ⟨[], none, 0⟩ >>= fun s =>
  match s.iNull with
  | none => .throw
  | some iN =>
    if s.nNull ≠ 1 then .throw else
    let all : List (ℝ × MVec m) := s.pairs ++ [(0, flipV (vecs iN))]
    let vec : Mat m := fun i => normV (all.getD i (0, 0)).2
    if ∀ j, |vec (Fin.last m) j - 1| < 1 / 10 ^ 8 then
      let s' : MVec m := fun i => accum (m + 1) (fun j => chi i j) 0 / nM m
      .ok ⟨fun i => (all.getD i (0, 0)).1, vec,
        fun i => accum (m + 1) (fun j => vec i j * s' j) 0 / nM m⟩
    else .throw

variable {m n : Nat}

/-- Fields of all monomer types. -/
abbrev Flds (m n : Nat) := Fin (m + 1) → Fin n → ℝ

/-- `Simulator::computeWc`, `Simulator.tpp:464-495`. -/
def computeWcF (e : Eig m) (w : Flds m n) : Flds m n := fun j i =>
  accum (m + 1) (fun k => e.vec j k / nM m * w k i) 0

/-- `Simulator::computeCc`, `Simulator.tpp:502-536`. -/
def computeCcF (e : Eig m) (c : Flds m n) : Flds m n := fun i k =>
  accum (m + 1) (fun j => e.vec i j * c j k) 0

/-- `Simulator::computeDc` without perturbation, `Simulator.tpp:542-570`. -/
def computeDcF (vMonomer : ℝ) (e : Eig m) (wc cc : Flds m n) : Fin m → Fin n → ℝ := fun i k =>
  1 / vMonomer * (-1 * nM m / e.val i.castSucc * (wc i.castSucc k - e.sc i.castSucc)
    + cc i.castSucc k)

/-- Change of the w fields by displacements `d` of the components, `ForceBiasMove.tpp:139-161`,
`ExplicitBdStep.tpp:99-115`, `RealMove.tpp:84-107`. -/
def displace (e : Eig m) (w : Flds m n) (d : Fin m → Fin n → ℝ) : Flds m n := fun i k =>
  accum m (fun j => e.vec j.castSucc i * d j k) (w i k)

/-- A polymer or solvent species: volume fraction, chemical potential, length (or bead number or
size). -/
structure Spec where
  phi : ℝ
  mu : ℝ
  len : ℝ

/-- Ideal gas contributions, `Simulator.tpp:210-249`. -/
def lnQSpecies : List Spec → ℝ → ℝ
  | [], a => a
  | s :: ss, a => lnQSpecies ss (if s.phi > 1 / 10 ^ 8 then a + s.phi * (-s.mu + 1) / s.len else a)

/-- `Simulator::computeHamiltonian` without perturbation, `Simulator.tpp:191-283`. -/
def hamiltonianF (vSystem vMonomer : ℝ) (species : List Spec) (e : Eig m) (wc : Flds m n) : ℝ :=
  let lnQ := lnQSpecies species 0
  let lnQ := accum n (fun i => wc (Fin.last m) i / (n : ℝ)) lnQ
  let HW := accum m (fun j => accum n (fun i =>
    (-(1 / 2) * nM m / e.val j.castSucc) * (wc j.castSucc i - e.sc j.castSucc)
      * (wc j.castSucc i - e.sc j.castSucc)) 0) 0
  let HW := HW / (n : ℝ)
  let HW := HW + 1 / 2 * e.sc (Fin.last m)
  let nMonomerSystem := vSystem / vMonomer;
  (-1) * nMonomerSystem * lnQ + nMonomerSystem * HW

/-- `EinsteinCrystalPerturbation::hamiltonian`, lines 106-140: Einstein crystal energy. -/
def ecHamiltonian (vSystem vMonomer : ℝ) (eps : Fin m → ℝ) (wc wc0 : Flds m n) : ℝ :=
  accum m (fun j => accum n (fun i => nM m / (2 * eps j) * (wc j.castSucc i - wc0 j.castSucc i)
    * (wc j.castSucc i - wc0 j.castSucc i)) 0) 0 / (n : ℝ) * (vSystem / vMonomer)

/-- Value returned by `EinsteinCrystalPerturbation::hamiltonian`, line 139. -/
def ecPerturbation (lam ec unperturbed : ℝ) : ℝ := (1 - lam) * (ec - unperturbed)

/-- `EinsteinCrystalPerturbation::incrementDc`, lines 145-167. -/
def incrementDc (vMonomer lam : ℝ) (eps : Fin m → ℝ) (wc wc0 : Flds m n)
    (dc : Fin m → Fin n → ℝ) : Fin m → Fin n → ℝ := fun i k =>
  dc i k + (1 - lam) * (nM m / (eps i * vMonomer) * (wc i.castSucc k - wc0 i.castSucc k) - dc i k)

/-- `EinsteinCrystalPerturbation::df`, line 173. -/
def ecDf (ec unperturbed : ℝ) : ℝ := unperturbed - ec

/-- Default of `epsilon`, `EinsteinCrystalPerturbation.tpp:84-88`. -/
def ecDefaultEps (e : Eig m) : Fin m → ℝ := fun i => -1 * e.val i.castSucc

end

end Verif.Fts
