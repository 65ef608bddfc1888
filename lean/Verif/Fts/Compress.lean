import Verif.AM.Model
import Verif.Fts.Eigen
import Verif.Solver.Dft

/-!
# Model of the compressors

Source: `/repo/src/rpc/fts/compressor/{AmCompressor,LrCompressor,LrAmCompressor}.tpp`.

Numbers are real. The solution of the diffusion equations is an arbitrary function `mde` of the
fields (`System::compute`). A NaN in the residual is represented by `error = none`, so the error is a
parameter of the iteration loops, as in `Verif.AM`.
-/

set_option autoImplicit false

namespace Verif.Fts

open Verif.AM

noncomputable section

variable {m n : Nat}

/-- Fields of the system and the copy `w0_` made by `setup`. -/
structure CSys (m n : Nat) where
  w : Flds m n
  c : Flds m n
  w0 : Flds m n

/-- `getResidual`, `AmCompressor.tpp:166-184`, `LrCompressor.tpp:183-199`,
`LrAmCompressor.tpp:232-250`. -/
def cResid (s : CSys m n) : Fin n → ℝ := fun k => accum (m + 1) (fun j => s.c j k) (-1)

/-- Operations used by `AmIteratorTmpl`: `getCurrent`, `update`, `evaluate`,
`AmCompressor.tpp:137-207`, `LrAmCompressor.tpp:200-275`. -/
def cOps (mde : Flds m n → Flds m n) : Sys (CSys m n) ℝ n where
  getCurrent := fun s k => s.w 0 k - s.w0 0 k
  getResidual := cResid
  update := fun s g => { s with w := fun i k => s.w0 i k + g k }
  evaluate := fun s => { s with c := mde s.w }

/-- `setup`, last loop of `AmCompressor.tpp:61-88` and `LrAmCompressor.tpp:63-110`. -/
def cSetup (s : CSys m n) : CSys m n := { s with w0 := s.w }

/-- `AmCompressor::compress`, `AmCompressor.tpp:93-98`: `AmIteratorTmpl::solve(false)`. -/
def amCompress (mde : Flds m n → Flds m n) (lu : LinSolve ℝ)
    (error : Vec ℝ n → Vec ℝ n → Option ℝ) (eps : ℝ) (lam : Nat → ℝ) (maxItr : Nat) (s : CSys m n)
    (am : Iter ℝ n) : Out (CSys m n) ℝ n :=
  solve (cOps mde) lu error eps lam maxItr false (cSetup s) am

/-- Iteration loop of `AmIteratorTmpl::solve` (`AmIteratorTmpl.tpp:120-222`) with a virtual
`addCorrection`. -/
def solveLoopC {σ : Type} (S : Sys σ ℝ n) (lu : LinSolve ℝ)
    (error : Vec ℝ n → Vec ℝ n → Option ℝ) (eps : ℝ) (corr : Vec ℝ n → Vec ℝ n → Vec ℝ n) :
    Nat → Nat → Nat → σ → Iter ℝ n → Out σ ℝ n
  | 0, _, up, sys, am => ⟨some 1, sys, am, up⟩
  | fuel + 1, itr, up, sys, am =>
    let x := S.getCurrent sys
    let r := S.getResidual sys
    let am1 := { am with stateHist := push (am.maxHist + 1) x am.stateHist
                         residHist := push (am.maxHist + 1) r am.residHist }
    match error r x with
    | none => ⟨some 1, sys, am1, up⟩
    | some e =>
      if e < eps then ⟨some 0, sys, am1, up⟩
      else match computeTrialCoeff lu itr am1 with
        | none => ⟨none, sys, am1, up⟩
        | some am2 =>
          let t := updateTrial am2 x r
          solveLoopC S lu error eps corr fuel (itr + 1) (up + 1)
            (S.evaluate (S.update sys (corr t.1 t.2))) am2

variable {D : Nat} {N : Fin (D + 1) → Nat} [∀ d, NeZero (N d)] (en : Fin n ≃ Solver.Grid N)

/-- Residual divided by `vMonomer * intraCorrelation` in Fourier space:
`LrCompressor.tpp:209-219`, `LrAmCompressor.tpp:163-190`. -/
def lrUpdate (vMonomer : ℝ) (intra : Solver.Half N → ℝ) (r : Fin n → ℝ) : Fin n → ℝ :=
  Solver.c2r en (fun k => Solver.r2c en r k * ((1 / (vMonomer * intra k) : ℝ) : ℂ))

/-- `LrAmCompressor::compress`, lines 115-120, with its `addCorrection`, lines 150-196. -/
def lrAmCompress (vMonomer : ℝ) (intra : Solver.Half N → ℝ) (mde : Flds m n → Flds m n)
    (lu : LinSolve ℝ) (error : Vec ℝ n → Vec ℝ n → Option ℝ) (eps : ℝ) (maxItr : Nat)
    (s : CSys m n) (am : Iter ℝ n) : Out (CSys m n) ℝ n :=
  let am1 := am.setup false
  solveLoopC (cOps mde) lu error eps (fun x r i => x i + lrUpdate en vMonomer intra r i) maxItr 0 0
    ((cOps mde).evaluate (cSetup s)) { am1 with nBasis := am1.stateBasis.length }

/-- `updateWFields`, `LrCompressor.tpp:203-227`, followed by `system().compute()`. -/
def lrStep (vMonomer : ℝ) (intra : Solver.Half N → ℝ) (mde : Flds m n → Flds m n) (s : CSys m n) :
    CSys m n :=
  let w : Flds m n := fun i k => s.w i k + lrUpdate en vMonomer intra (cResid s) k
  { s with w := w, c := mde w }

/-- Loop of `LrCompressor::compress`, `LrCompressor.tpp:114-169`: return code, final system, number
of field updates. -/
def lrLoop (vMonomer : ℝ) (intra : Solver.Half N → ℝ) (mde : Flds m n → Flds m n)
    (error : (Fin n → ℝ) → Option ℝ) (eps : ℝ) : Nat → CSys m n → Nat → Nat × CSys m n × Nat
  | 0, s, up => (1, s, up)
  | fuel + 1, s, up =>
    match error (cResid s) with
    | none => (1, s, up)
    | some e =>
      if e < eps then (0, s, up)
      else lrLoop vMonomer intra mde error eps fuel (lrStep en vMonomer intra mde s) (up + 1)

/-- `LrCompressor::compress`, `LrCompressor.tpp:98-177`. -/
def lrCompress (vMonomer : ℝ) (intra : Solver.Half N → ℝ) (mde : Flds m n → Flds m n)
    (error : (Fin n → ℝ) → Option ℝ) (eps : ℝ) (maxItr : Nat) (s : CSys m n) : Nat × CSys m n × Nat :=
  lrLoop en vMonomer intra mde error eps maxItr { s with c := mde s.w } 0

/-- `LrCompressor::maxAbs`, `LrCompressor.tpp:260-275`, without NaN values. -/
def maxAbsL : List ℝ → ℝ → ℝ
  | [], a => a
  | x :: xs, a => maxAbsL xs (if |x| > a then |x| else a)

/-- `LrCompressor::computeError`, `LrCompressor.tpp:305-336`, for `errorType` `max`, `norm`, `rms`. -/
inductive ErrType | max | norm | rms

def lrError (t : ErrType) (r : Fin n → ℝ) : ℝ :=
  match t with
  | .max => maxAbsL (List.ofFn r) 0
  | .norm => √(accum n (fun i => r i * r i) 0)
  | .rms => √(accum n (fun i => r i * r i) 0) / √(n : ℝ)

end

end Verif.Fts
