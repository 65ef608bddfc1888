import Verif.Loop
import Mathlib.Algebra.Order.Field.Basic

/-!
# Model of `AmIteratorTmpl` (Anderson mixing)

Source: `/repo/src/pscf/iterator/AmIteratorTmpl.tpp`. Vectors have `N` elements of an ordered
field `K` (exact arithmetic); ring buffers are lists, most recent element first. The parent
system is abstract: any type with the four operations the iterator calls.
-/

namespace Verif.AM

variable {K : Type} [Field K] [LinearOrder K] {N : Nat}

abbrev Vec (K : Type) (N : Nat) := Fin N → K

/-- `dotProduct` (`AmIteratorDArray.tpp`). -/
def dot (a b : Vec K N) : K := accum N (fun i => a i * b i) 0

/-- `RingBuffer::append` / `advance` with capacity `cap` (assumed contract of Util): newest
first, the oldest is dropped when full. -/
def push {α : Type} (cap : Nat) (x : α) (l : List α) : List α := (x :: l).take cap

/-- Member variables of `AmIteratorTmpl` used by the algorithm (`AmIteratorTmpl.h`). -/
structure Iter (K : Type) (N : Nat) where
  allocated : Bool
  maxHist : Nat
  stateHist : List (Vec K N)
  residHist : List (Vec K N)
  stateBasis : List (Vec K N)
  residBasis : List (Vec K N)
  U : Nat → Nat → K
  coeffs : Nat → K
  nBasis : Nat

/-- A new iterator object; the contents of unallocated arrays are irrelevant. -/
def Iter.new (maxHist : Nat) (U : Nat → Nat → K) (coeffs : Nat → K) : Iter K N :=
  ⟨false, maxHist, [], [], [], [], U, coeffs, 0⟩

/-- `setup`, `AmIteratorTmpl.tpp:394-408` (with `allocateAM` 357-388). -/
def Iter.setup (s : Iter K N) (isContinuation : Bool) : Iter K N :=
  if s.allocated = false then { s with allocated := true }
  else if isContinuation then { s with stateHist := [], residHist := [] }
  else { s with stateHist := [], residHist := [], stateBasis := [], residBasis := [] }

/-- `updateBasis`, `AmIteratorTmpl.tpp:701-718`, called with at least two entries in the
history. -/
def updateBasis (maxHist : Nat) (basis hist : List (Vec K N)) : List (Vec K N) :=
  match hist with
  | a :: b :: _ => push maxHist (fun i => a i - b i) basis
  | _ => basis

/-- `updateU`, `AmIteratorTmpl.tpp:588-614`. -/
def updateU (U : Nat → Nat → K) (basis : List (Vec K N)) : Nat → Nat → K := fun m n =>
  match basis with
  | [] => if 0 < m ∧ 0 < n then U (m - 1) (n - 1) else U m n
  | b0 :: _ =>
    if h : n = 0 ∧ m < basis.length then dot b0 basis[m]
    else if h : m = 0 ∧ n < basis.length then dot b0 basis[n]
    else if 0 < m ∧ 0 < n then U (m - 1) (n - 1) else U m n

/-- Solution of the linear system with `LuSolver` (GSL, external): size, matrix, right hand
side; `none` if it fails. -/
abbrev LinSolve (K : Type) := Nat → (Nat → Nat → K) → (Nat → K) → Option (Nat → K)

/-- Contract: a returned vector solves the system. -/
def LinSolve.Correct (lu : LinSolve K) : Prop := ∀ n U v x, lu n U v = some x →
  ∀ m, m < n → ∑ j : Fin n, U m j * x j = v m

/-- `computeV`, `AmIteratorTmpl.tpp:620-629`. -/
def computeV (r : Vec K N) (basis : List (Vec K N)) (m : Nat) : K :=
  if h : m < basis.length then dot r basis[m] else 0

/-- `computeTrialCoeff`, `AmIteratorTmpl.tpp:429-522`; `none` stands for an exception or a
division by zero. -/
def computeTrialCoeff (lu : LinSolve K) (itr : Nat) (s : Iter K N) : Option (Iter K N) :=
  if itr = 0 ∧ s.nBasis = 0 then some { s with U := fun _ _ => 0, coeffs := fun _ => 0 }
  else if itr = 0 then some s
  else
    let s1 := if s.stateHist.length > 1 then
        let sb := updateBasis s.maxHist s.stateBasis s.stateHist
        let rb := updateBasis s.maxHist s.residBasis s.residHist
        { s with stateBasis := sb, residBasis := rb, U := updateU s.U rb }
      else s
    let s2 := { s1 with nBasis := s1.residBasis.length }
    if s2.nBasis = 0 ∨ s2.stateBasis.length ≠ s2.nBasis then none
    else match s2.residHist with
      | [] => none
      | r :: _ =>
        let v := computeV r s2.residBasis
        let sol : Option (Nat → K) :=
          if s2.nBasis = 1 then
            if s2.U 0 0 = 0 then none else some (fun _ => v 0 / s2.U 0 0)
          else lu s2.nBasis s2.U v
        match sol with
        | none => none
        | some x => some { s2 with coeffs := fun i => if i < s2.nBasis then x i * (-1) else s2.coeffs i }

/-- `addEqVectors`, `AmIteratorTmpl.tpp:724-736`. -/
def addEqVectors (v : Vec K N) : List (Vec K N) → (Nat → K) → Vec K N
  | [], _ => v
  | b :: bs, c => addEqVectors (fun k => v k + b k * c 0) bs (fun i => c (i + 1))

/-- `updateTrial`, `AmIteratorTmpl.tpp:525-567`: trial state and trial residual. -/
def updateTrial (s : Iter K N) (x r : Vec K N) : Vec K N × Vec K N :=
  if s.nBasis > 0 then
    (addEqVectors x s.stateBasis s.coeffs, addEqVectors r s.residBasis s.coeffs)
  else (x, r)

/-- `addCorrection`, `AmIteratorTmpl.tpp:742-750`, with mixing parameter `lam`
(`computeLambda`, 573-583). -/
def addCorrection (lam : K) (x r : Vec K N) : Vec K N := fun k => x k + r k * lam

/-- Operations of the parent system used by the iterator (virtual functions `getCurrent`,
`getResidual`, `update`, `evaluate` of `AmIteratorTmpl.h`). -/
structure Sys (σ K : Type) (N : Nat) where
  getCurrent : σ → Vec K N
  getResidual : σ → Vec K N
  update : σ → Vec K N → σ
  evaluate : σ → σ

/-- Result of `solve`: return code (`none`: exception), system, iterator, number of field
updates made. -/
structure Out (σ K : Type) (N : Nat) where
  code : Option Nat
  sys : σ
  am : Iter K N
  updates : Nat

/-- The iteration loop of `solve`, `AmIteratorTmpl.tpp:120-222`. `fuel` is `maxItr_ - itr_`,
`error r x` the scalar error (`none`: NaN), `lam` the mixing parameter as a function of
`nBasis_`. -/
def solveLoop {σ : Type} (S : Sys σ K N) (lu : LinSolve K)
    (error : Vec K N → Vec K N → Option K) (eps : K) (lam : Nat → K) :
    Nat → Nat → Nat → σ → Iter K N → Out σ K N
  | 0, _, up, sys, am => ⟨some 1, sys, am, up⟩
  | fuel + 1, itr, up, sys, am =>
    let x := S.getCurrent sys
    let r := S.getResidual sys
    let am1 := { am with stateHist := push (am.maxHist + 1) x am.stateHist
                         residHist := push (am.maxHist + 1) r am.residHist }
    match error r x with
    | none => ⟨some 1, sys, am1, up⟩
    | some e =>
      if e < eps then ⟨some 0, sys, am1, up⟩
      else match computeTrialCoeff lu itr am1 with
        | none => ⟨none, sys, am1, up⟩
        | some am2 =>
          let t := updateTrial am2 x r
          let y := addCorrection (lam am2.nBasis) t.1 t.2
          solveLoop S lu error eps lam fuel (itr + 1) (up + 1)
            (S.evaluate (S.update sys y)) am2

/-- `solve`, `AmIteratorTmpl.tpp:98-232`. -/
def solve {σ : Type} (S : Sys σ K N) (lu : LinSolve K)
    (error : Vec K N → Vec K N → Option K) (eps : K) (lam : Nat → K) (maxItr : Nat)
    (isContinuation : Bool) (sys : σ) (am : Iter K N) : Out σ K N :=
  let am1 := am.setup isContinuation
  solveLoop S lu error eps lam maxItr 0 0 (S.evaluate sys)
    { am1 with nBasis := am1.stateBasis.length }

end Verif.AM
