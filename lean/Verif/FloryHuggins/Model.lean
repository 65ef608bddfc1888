import Verif.Basic
import Verif.Loop
import Mathlib.Analysis.SpecialFunctions.Log.Basic
import Mathlib.LinearAlgebra.Matrix.Defs

/-!
# Model of `FloryHuggins::Mixture`

Sources: `/repo/src/pscf/floryHuggins/Mixture.cpp`, `Molecule.cpp`, `Clump.cpp`, and
`Interaction::computeW`, `fHelmholtz` (`/repo/src/pscf/inter/Interaction.cpp`).

Doubles are real numbers; a step whose floating point result is an infinity or NaN (logarithm
of a non-positive volume fraction, division by a zero molecule size) has outcome `ub`.
There are `m + 1` molecule species (`nMolecule_ > 0`) and `M` monomer types; monomer ids in
range are expressed by the type `Fin M` (the code checks this only in debug builds,
`Mixture.cpp:505-516`).
-/

namespace Verif.FH

/-- `Clump` (`pscf/floryHuggins/Clump.h`). -/
structure Clump (M : Nat) where
  monomer : Fin M
  size : ℝ

/-- `Molecule::computeSize`, `pscf/floryHuggins/Molecule.cpp:58-67`. -/
noncomputable def molSize {M : Nat} (cl : List (Clump M)) : ℝ :=
  cl.foldl (fun s c => s + c.size) 0

/-- Workspace `c_` of `initialize` for one polymer: total length per monomer type,
`Mixture.cpp:139-150`. Blocks are pairs of monomer id and length. -/
noncomputable def clumpSizes {M : Nat} (blocks : List (Fin M × ℝ)) : Fin M → ℝ :=
  blocks.foldl (fun c b => fun k => if k = b.1 then c k + b.2 else c k) (fun _ => 0)

open Classical in
/-- Clumps assigned by `initialize` to a polymer, `Mixture.cpp:152-170`. -/
noncomputable def polymerClumps {M : Nat} (blocks : List (Fin M × ℝ)) : List (Clump M) :=
  (List.finRange M).filterMap fun j =>
    if clumpSizes blocks j > 1 / 100000000 then some ⟨j, clumpSizes blocks j⟩ else none

/-- Clumps assigned by `initialize` to a solvent, `Mixture.cpp:177-190`. -/
def solventClumps {M : Nat} (monomer : Fin M) (size : ℝ) : List (Clump M) := [⟨monomer, size⟩]

/-- Molecule data (`molecules_`). -/
abbrev Mols (m M : Nat) := Fin (m + 1) → List (Clump M)

/-- First loops of `computeC`, `Mixture.cpp:221-237`: accumulation of `c_`. -/
noncomputable def rawC {m M : Nat} (mols : Mols m M) (phi : Fin (m + 1) → ℝ) : Fin M → ℝ :=
  (List.finRange (m + 1)).foldl (fun c i =>
    let conc := phi i / molSize (mols i)
    (mols i).foldl (fun c cl => fun k =>
      if k = cl.monomer then c k + conc * cl.size else c k) c) (fun _ => 0)

open Classical in
/-- `computeC`, `Mixture.cpp:218-251`: checks and normalisation. -/
noncomputable def computeC {m M : Nat} (mols : Mols m M) (phi : Fin (m + 1) → ℝ) :
    Res (Fin M → ℝ) :=
  if ∃ i, molSize (mols i) = 0 then .ub else
  let c := rawC mols phi
  let sum := accum M c 0
  if (∀ k, 0 ≤ c k ∧ c k ≤ 1) ∧ sum > 9999 / 10000 ∧ sum < 10001 / 10000 then
    .ok (fun k => c k / sum)
  else .throw

open Classical in
/-- `setComposition`, `Mixture.cpp:198-216`; returns `phi_` and `c_`. The partially modified
state left by an exception is not modelled. -/
noncomputable def setComposition {m M : Nat} (mols : Mols m M) (phi : Fin (m + 1) → ℝ) :
    Res ((Fin (m + 1) → ℝ) × (Fin M → ℝ)) :=
  let sum := accum m (fun i => phi i.castSucc) 0
  if (∀ i : Fin m, 0 ≤ phi i.castSucc ∧ phi i.castSucc ≤ 1) ∧ sum ≤ 1 then
    let phi' := fun i => if i = Fin.last m then 1 - sum else phi i
    (computeC mols phi').bind fun c => .ok (phi', c)
  else .throw

open Classical in
/-- `computeMu`, `Mixture.cpp:256-280`, with `computeW` of `Interaction.cpp:107-118`. -/
noncomputable def computeMu {m M : Nat} (mols : Mols m M) (chi : Matrix (Fin M) (Fin M) ℝ)
    (phi : Fin (m + 1) → ℝ) (c : Fin M → ℝ) (xi : ℝ) : Res (Fin (m + 1) → ℝ) :=
  if ∃ i, phi i ≤ 0 then .ub else
  let w : Fin M → ℝ := fun i => accum M (fun j => chi i j * c j) 0
  .ok fun i => (mols i).foldl (fun mu cl => mu + cl.size * w cl.monomer)
    (Real.log (phi i) + xi * molSize (mols i))

open Classical in
/-- `computeFreeEnergy`, `Mixture.cpp:479-500`, with `fHelmholtz` of `Interaction.cpp:92-102`;
returns `(fHelmholtz_, pressure_)`. -/
noncomputable def computeFreeEnergy {m M : Nat} (mols : Mols m M)
    (chi : Matrix (Fin M) (Fin M) ℝ) (phi : Fin (m + 1) → ℝ) (c : Fin M → ℝ)
    (mu : Fin (m + 1) → ℝ) : Res (ℝ × ℝ) :=
  if ∃ i, phi i ≤ 0 then .ub else
  let f0 := accum (m + 1) (fun i => phi i * (Real.log (phi i) - 1) / molSize (mols i)) 0
  let f := f0 + (1 / 2) * (List.finRange M).foldl
    (fun s i => accum M (fun j => chi i j * c i * c j) s) 0
  .ok (f, accum (m + 1) (fun i => phi i * mu i / molSize (mols i)) (-f))

/-- `adjustXi`, `Mixture.cpp:450-463`; returns the new `mu_` and `xi`. -/
noncomputable def adjustXi {m M : Nat} (mols : Mols m M) (target mu : Fin (m + 1) → ℝ) (xi : ℝ) :
    (Fin (m + 1) → ℝ) × ℝ :=
  let dxi := accum (m + 1) (fun i => target i - mu i) 0 / accum (m + 1) (fun i => molSize (mols i)) 0
  (fun i => mu i + dxi * molSize (mols i), xi + dxi)

/-- State of the Newton iteration of `computePhi`. -/
structure NState (m M : Nat) where
  phi : Fin (m + 1) → ℝ
  c : Fin M → ℝ
  mu : Fin (m + 1) → ℝ
  xi : ℝ

open Classical in
/-- The error computed by `computeResidual`, `Mixture.cpp:465-474`. -/
noncomputable def errorOf {m : Nat} (mu target : Fin (m + 1) → ℝ) : ℝ :=
  (List.finRange (m + 1)).foldl
    (fun e i => if |mu i - target i| > e then |mu i - target i| else e) 0

open Classical in
/-- Inner loop of the Newton update, `Mixture.cpp:393-421`: up to `k` halvings. The result is
the new `phi_` and the increment of `xi`, or `none` when out of range throughout. -/
noncomputable def tryUpdate {m : Nat} (phiOld : Fin (m + 1) → ℝ) : Nat → (Fin (m + 1) → ℝ) →
    Option ((Fin (m + 1) → ℝ) × ℝ)
  | 0, _ => none
  | k + 1, dX =>
    let sum := accum m (fun i => phiOld i.castSucc - dX i.castSucc) 0
    let phi := fun i => if i = Fin.last m then 1 - sum else phiOld i - dX i
    if ∀ i, ¬ phi i < 0 ∧ ¬ phi i > 1 then some (phi, dX (Fin.last m))
    else tryUpdate phiOld k (fun i => dX i * (1 / 2))

/-- Recompute `c_`, `mu_` and adjust `xi`, `Mixture.cpp:429-431` (and 305-307). -/
noncomputable def refresh {m M : Nat} (mols : Mols m M) (chi : Matrix (Fin M) (Fin M) ℝ)
    (target phi : Fin (m + 1) → ℝ) (xi : ℝ) : Res (NState m M) :=
  (computeC mols phi).bind fun c =>
  (computeMu mols chi phi c xi).bind fun mu =>
  let r := adjustXi mols target mu xi
  .ok ⟨phi, c, r.1, r.2⟩

open Classical in
/-- Newton loop of `computePhi`, `Mixture.cpp:333-447`. `newton s` stands for the solution of
the linear system computed with `LuSolver` from the jacobian and residual; nothing is assumed
about it. -/
noncomputable def newtonLoop {m M : Nat} (mols : Mols m M) (chi : Matrix (Fin M) (Fin M) ℝ)
    (target : Fin (m + 1) → ℝ) (newton : NState m M → Fin (m + 1) → ℝ) :
    Nat → NState m M → Res (NState m M)
  | 0, _ => .throw
  | it + 1, s =>
    match tryUpdate s.phi 5 (newton s) with
    | none => .throw
    | some (phi, dxi) =>
      (refresh mols chi target phi (s.xi - dxi)).bind fun s' =>
      if errorOf s'.mu target < 1 / 10000000000 then .ok s'
      else newtonLoop mols chi target newton it s'

open Classical in
/-- `computePhi`, `Mixture.cpp:285-448`. -/
noncomputable def computePhi {m M : Nat} (mols : Mols m M) (chi : Matrix (Fin M) (Fin M) ℝ)
    (newton : NState m M → Fin (m + 1) → ℝ) (target phi : Fin (m + 1) → ℝ) (xi : ℝ) :
    Res (NState m M) :=
  (setComposition mols phi).bind fun pc =>
  (computeMu mols chi pc.1 pc.2 xi).bind fun mu =>
  let r := adjustXi mols target mu xi
  let s : NState m M := ⟨pc.1, pc.2, r.1, r.2⟩
  if errorOf s.mu target < 1 / 10000000000 then .ok s
  else newtonLoop mols chi target newton 50 s

end Verif.FH
