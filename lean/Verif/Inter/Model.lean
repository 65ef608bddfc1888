import Verif.Basic
import Verif.Loop
import Mathlib.LinearAlgebra.Matrix.NonsingularInverse
import Mathlib.Algebra.Order.Field.Basic

/-!
# Model of `Interaction` and `AmbdInteraction` and of the SCFT residual

Sources (under `/repo/src`): `pscf/inter/Interaction.cpp`, `pscf/iterator/AmbdInteraction.cpp`,
`rpc/scft/iterator/AmIteratorBasis.tpp`.

Doubles are elements of an ordered field `K` (no rounding). A result that would contain NaN
is represented by `none`.
-/

namespace Verif.Inter

variable {K : Type} [Field K] [LinearOrder K] [IsStrictOrderedRing K] {n : Nat}

abbrev Mat (K : Type) (n : Nat) := Matrix (Fin n) (Fin n) K

/-- Members `chi_`, `chiInverse_` of `Interaction` after allocation
(`pscf/inter/Interaction.h`). `inv = none` means that `chiInverse_` holds NaN (or has not
been assigned yet). -/
structure Interaction (K : Type) (n : Nat) where
  chi : Mat K n
  inv : Option (Mat K n)

/-- `LuSolver::computeLU` followed by `inverse` (`pscf/math/LuSolver.cpp:66-113`, GSL): an
external routine; `none` is the GSL error raised for a singular matrix. -/
abbrev LuInverse (K : Type) := (n : Nat) → Mat K n → Option (Mat K n)

/-- Contract assumed of the external LU routine: a returned matrix is an inverse. -/
def LuInverse.Correct (lu : LuInverse K) : Prop := ∀ n (A B : Mat K n), lu n A = some B → A * B = 1

/-- The assignments of `chiInverse_` for two monomers, `pscf/inter/Interaction.cpp:64-67`. -/
def inverse2 (chi : Mat K n) (i0 i1 : Fin n) (det : K) : Mat K n := fun i j =>
  if i = i0 ∧ j = i1 then - chi i0 i1 / det
  else if i = i1 ∧ j = i0 then - chi i1 i0 / det
  else if i = i1 ∧ j = i1 then chi i0 i0 / det
  else chi i1 i1 / det

/-- Outcome of `updateMembers`: `throw` leaves `chiInverse_` untouched. -/
def updateMembers (lu : LuInverse K) (s : Interaction K n) : Res (Interaction K n) :=
  if h : n = 2 then
    -- `pscf/inter/Interaction.cpp:57-68`
    let i0 : Fin n := ⟨0, by omega⟩
    let i1 : Fin n := ⟨1, by omega⟩
    let det := s.chi i0 i0 * s.chi i1 i1 - s.chi i0 i1 * s.chi i1 i0
    let norm := s.chi i0 i0 * s.chi i0 i0 + s.chi i1 i1 * s.chi i1 i1
                + 2 * s.chi i0 i1 * s.chi i1 i0
    if norm = 0 then
      -- `det/norm` is NaN or infinite; `fabs(..) < 1e-8` is false and the code goes on
      -- to divide by `det`
      if det = 0 then .ok { s with inv := none }
      else .ok { s with inv := some (inverse2 s.chi i0 i1 det) }
    else if |det / norm| < 1 / 100000000 then .throw
    else .ok { s with inv := some (inverse2 s.chi i0 i1 det) }
  else
    -- `pscf/inter/Interaction.cpp:70-73`
    match lu n s.chi with
    | some B => .ok { s with inv := some B }
    | none => .throw

/-- The assignments at the start of `setChi`, `pscf/inter/Interaction.cpp:80-83`. -/
def writeChi (s : Interaction K n) (i j : Fin n) (x : K) : Interaction K n :=
  { s with chi := fun a b => if (a = i ∧ b = j) ∨ (i ≠ j ∧ a = j ∧ b = i) then x else s.chi a b }

/-- `setChi`, `pscf/inter/Interaction.cpp:78-87`: outcome flag (true: returned normally) and
the state of the object afterwards. When `updateMembers` throws, `chi_` has already been
modified. -/
def setChi (lu : LuInverse K) (s : Interaction K n) (i j : Fin n) (x : K) :
    Bool × Interaction K n :=
  match updateMembers lu (writeChi s i j x) with
  | .ok s' => (true, s')
  | _ => (false, writeChi s i j x)

/-- `readParameters`, `pscf/inter/Interaction.cpp:43-50`. The chi matrix comes from
`readDSymmMatrix` of the Util library, which stores a symmetric matrix (assumed). -/
def readChi (lu : LuInverse K) (chi : Mat K n) : Res (Interaction K n) :=
  updateMembers lu ⟨chi, none⟩

/-- A history of `setChi` calls; returns the outcome flags and the final state. -/
def setChis (lu : LuInverse K) : Interaction K n → List (Fin n × Fin n × K) →
    List Bool × Interaction K n
  | s, [] => ([], s)
  | s, (i, j, x) :: ops =>
    let r := setChi lu s i j x
    let rs := setChis lu r.2 ops
    (r.1 :: rs.1, rs.2)

/-- `computeW`, `pscf/inter/Interaction.cpp:107-118`. -/
def computeW (chi : Mat K n) (c : Fin n → K) : Fin n → K :=
  fun i => accum n (fun j => chi i j * c j) 0

/-- The double loop accumulating `sum1` and `sum2`,
`pscf/inter/Interaction.cpp:129-137`. -/
def invSums (inv : Mat K n) (w : Fin n → K) : K × K :=
  ((List.finRange n).foldl (fun s i => accum n (fun j => inv i j * w j) s) 0,
   (List.finRange n).foldl (fun s i => accum n (fun j => inv i j) s) 0)

/-- `computeC`, `pscf/inter/Interaction.cpp:123-146`; returns `(c, xi)`. -/
def computeC (inv : Mat K n) (w : Fin n → K) : (Fin n → K) × K :=
  let s := invSums inv w
  let xi := (s.1 - 1) / s.2
  (fun i => accum n (fun j => inv i j * (w j - xi)) 0, xi)

/-- `computeXi`, `pscf/inter/Interaction.cpp:151-167`. -/
def computeXi (inv : Mat K n) (w : Fin n → K) : K :=
  let sum1 := (List.finRange n).foldl (fun s i => accum n (fun j => inv i j * w j) s) 0
  let sum2 := (List.finRange n).foldl (fun s i => accum n (fun j => inv i j) s) 0
  (sum1 - 1) / sum2

/-- `fHelmholtz`, `pscf/inter/Interaction.cpp:92-102`. -/
def fHelmholtz (chi : Mat K n) (c : Fin n → K) : K :=
  (1 / 2) * (List.finRange n).foldl (fun s i => accum n (fun j => chi i j * c i * c j) s) 0

/-! ## `AmbdInteraction` and the residual -/

/-- Row `p_(0,i)` before normalisation, `pscf/iterator/AmbdInteraction.cpp:66-70`. -/
def pRow (inv : Mat K n) (i : Fin n) : K := accum n (fun j => - inv j i) 0

/-- `sumChiInverse_`, `pscf/iterator/AmbdInteraction.cpp:65, 71, 83`. -/
def sumChiInverse (inv : Mat K n) : K := accum n (fun i => - pRow inv i) 0

/-- The matrix `p_`, `pscf/iterator/AmbdInteraction.cpp:63-82`. Every entry of column `j` is
first set to `p_(0,j)`, then divided by the sum, and 1 is added on the diagonal. -/
def pMatrix (inv : Mat K n) : Mat K n := fun i j =>
  pRow inv j / sumChiInverse inv + (if i = j then 1 else 0)

/-- SCF residual of monomer `i` for one basis function (or grid point),
`rpc/scft/iterator/AmIteratorBasis.tpp:212-251`: `c`, `w`, `h` are the values of the fields of
all monomers for that element, `m` the mask value (1 for the homogeneous function and 0 for
the others if there is no mask). The case without external field is `h = 0`. -/
def residual (chi inv : Mat K n) (c w h : Fin n → K) (m : K) (i : Fin n) : K :=
  accum n (fun j => chi i j * c j + pMatrix inv i j * (h j - w j)) 0
    + (-1 / sumChiInverse inv) * m

/-- Field part of the residual vector, `rpc/scft/iterator/AmIteratorBasis.tpp:196-258`: element
`k` of monomer `i`, with optional external fields and mask and the canonical-ensemble flag.
(In the code it is stored at position `i*nBasis + k`.) -/
def residVec (chi inv : Mat K n) (canonical : Bool) (mask : Option (Nat → K))
    (h : Option (Fin n → Nat → K)) (c w : Fin n → Nat → K) (i : Fin n) (k : Nat) : K :=
  if canonical = true ∧ k = 0 then 0
  else
    let r := accum n (fun j => match h with
      | some h => chi i j * c j k + pMatrix inv i j * (h j k - w j k)
      | none => chi i j * c j k - pMatrix inv i j * w j k) 0
    let shift := -1 / sumChiInverse inv
    match mask with
    | some m => r + shift * m k
    | none => if k = 0 then r + shift else r

/-- Homogeneous field component assigned by `update` in the canonical ensemble,
`rpc/scft/iterator/AmIteratorBasis.tpp:312-339`. -/
def canonicalW0 (chi : Mat K n) (c0 h0 : Fin n → K) (i : Fin n) : K :=
  accum n (fun j => chi i j * c0 j) 0 + h0 i

end Verif.Inter
