import Verif.R1d.Model
import Verif.Scft.Model

/-!
# Model of the iterators of the one-dimensional program

Sources: `/repo/src/r1d/iterator/{NrIterator,BinaryRelaxIterator,AmIterator}.cpp`.

There are `M + 1` monomer types and `L + 1` grid points. `mix` stands for `Mixture::compute`: the concentrations
as a function of the fields. In the Newton-Raphson iterator numbers may be "not a number": `none`. All operations
with `none` give `none` and all comparisons with it are false. Output to the log file and timers are left out.
-/

set_option autoImplicit false

namespace Verif.R1d

open Verif.Inter

/-! ## Numbers -/

/-- A double: `none` is "not a number". -/
abbrev Num (K : Type) := Option K

/-- Fields of the one-dimensional program. -/
abbrev NFlds (M L : Nat) (K : Type) := Fin (M + 1) → Fin (L + 1) → Num K

section

variable {K : Type}

/-- Binary operation of doubles. -/
def nop (f : K → K → K) : Num K → Num K → Num K
  | some a, some b => some (f a b)
  | _, _ => none

/-- Loop `sum += t j`. -/
def naccum [Field K] (n : Nat) (t : Fin n → Num K) (z : Num K) : Num K :=
  (List.finRange n).foldl (fun s j => nop (· + ·) s (t j)) z

/-- Comparison `|x| > y` of a double with a number. -/
def nabsGt [Field K] [LinearOrder K] (x : Num K) (y : K) : Bool :=
  match x with
  | some a => decide (y < |a|)
  | none => false

end

section Nr

variable {M L : Nat} {K : Type} [Field K] [LinearOrder K]

/-- A matrix of the Newton-Raphson method. Indices `j*nx + i` are pairs. -/
abbrev NMat (M L : Nat) (K : Type) := Fin (M + 1) → Fin (L + 1) → Fin (M + 1) → Fin (L + 1) → Num K

/-- What the Newton-Raphson iterator uses: interaction, concentrations as functions of the fields,
`LuSolver::computeLU` and `solve` (any functions of matrix and right hand side), and parameters. -/
structure NrProb (M L : Nat) (K : Type) where
  chi : Fin (M + 1) → Fin (M + 1) → K
  mix : NFlds M L K → NFlds M L K
  lu : NMat M L K → NFlds M L K → NFlds M L K
  eps : K
  maxItr : Nat

/-- Ensemble of a species. -/
inductive Ens where
  | unknown | closed | opened
deriving DecidableEq

/-- `isCanonical_`, `NrIterator.cpp:234-245` (and `BinaryRelaxIterator.cpp:147-158`), from the ensembles of the
polymers. -/
def nrCanonical : List Ens → Res Bool
  | [] => .ok true
  | .unknown :: _ => .throw
  | .opened :: r => (nrCanonical r).bind fun _ => .ok false
  | .closed :: r => nrCanonical r

/-- `computeResidual`, `NrIterator.cpp:82-136`. -/
def nrResidual (P : NrProb M L K) (canonical : Bool) (w c : NFlds M L K) : NFlds M L K := fun j i =>
  let wArray (j : Fin (M + 1)) := naccum (M + 1) (fun k => nop (· * ·) (some (P.chi j k)) (c k i)) (some 0)
  let first (j : Fin (M + 1)) := nop (· - ·) (wArray j) (w j i)
  if j = 0 then
    if canonical ∧ i = Fin.last L then w (Fin.last M) (Fin.last L)
    else naccum (M + 1) (fun k => c k i) (some (-1))
  else nop (· - ·) (first j) (first 0)

/-- `residualNorm`, `NrIterator.cpp:211-225`. -/
def nrNorm (r : NFlds M L K) : K :=
  (List.finRange (M + 1)).foldl (fun n j => (List.finRange (L + 1)).foldl
    (fun n i => if nabsGt (r j i) n then ((r j i).map fun x => |x|).getD n else n) n) 0

/-- Field with one element changed by `delta`. -/
def bump (w : NFlds M L K) (j : Fin (M + 1)) (i : Fin (L + 1)) : NFlds M L K := fun j' i' =>
  if j' = j ∧ i' = i then nop (· + ·) (w j i) (some (1 / 1000)) else w j' i'

/-- `computeJacobian`, `NrIterator.cpp:141-179`. -/
def nrJacobian (P : NrProb M L K) (canonical : Bool) (w r : NFlds M L K) : NMat M L K := fun jr ir jc ic =>
  let w' := bump w jc ic
  nop (· / ·) (nop (· - ·) (nrResidual P canonical w' (P.mix w') jr ir) (r jr ir)) (some (1 / 1000))

/-- Shift of all fields that makes the last element zero, `NrIterator.cpp:199-207` and `247-257`. -/
def shiftLast (canonical : Bool) (w : NFlds M L K) : NFlds M L K :=
  if canonical then fun j i => nop (· - ·) (w j i) (w (Fin.last M) (Fin.last L)) else w

/-- `incrementWFields`, `NrIterator.cpp:181-209`. -/
def incrementW (canonical : Bool) (w dW : NFlds M L K) : NFlds M L K :=
  shiftLast canonical fun j i => nop (· - ·) (w j i) (dW j i)

/-- Members of the iterator and of the system. `mixW` are the fields of the last call of `Mixture::compute`: volume
fractions, chemical potentials and partition functions of species belong to them. -/
structure NrSt (M L : Nat) (K : Type) where
  w : NFlds M L K
  c : NFlds M L K
  mixW : NFlds M L K
  residual : NFlds M L K
  norm : K
  jacobian : NMat M L K
  needsJacobian : Bool
  newJacobian : Bool

/-- A trial: increment, new fields, concentrations, residual and norm, `NrIterator.cpp:295-299`. -/
structure Trial (M L : Nat) (K : Type) where
  dOmega : NFlds M L K
  w : NFlds M L K
  c : NFlds M L K
  residual : NFlds M L K
  norm : K

/-- `NrIterator.cpp:295-299`. -/
def nrTrial (P : NrProb M L K) (canonical : Bool) (w d : NFlds M L K) : Trial M L K :=
  let w' := incrementW canonical w d
  let c' := P.mix w'
  let r' := nrResidual P canonical w' c'
  ⟨d, w', c', r', nrNorm r'⟩

/-- The loop that reduces the increment, `NrIterator.cpp:301-315`; the flag tells if it was reduced. -/
def nrShrink (P : NrProb M L K) (canonical : Bool) (w : NFlds M L K) (norm : K) :
    Nat → Trial M L K → Bool → Trial M L K × Bool
  | 0, t, b => (t, b)
  | n + 1, t, b =>
    if norm < t.norm then
      nrShrink P canonical w norm n
        (nrTrial P canonical w fun j i => nop (· * ·) (t.dOmega j i) (some (66666666 / 100000000))) true
    else (t, b)

/-- `if (normNew > norm)`: reversed increment, `NrIterator.cpp:317-329`. -/
def nrReverse (P : NrProb M L K) (canonical : Bool) (w : NFlds M L K) (norm : K) (t : Trial M L K) (b : Bool) :
    Trial M L K × Bool :=
  if norm < t.norm then
    (nrTrial P canonical w fun j i => nop (· * ·) (t.dOmega j i) (some (-1)), true)
  else (t, b)

/-- Jacobian, if needed, `NrIterator.cpp:285-290`. The last call of `Mixture::compute` in `computeJacobian` is for
the last column. -/
def nrPrepare (P : NrProb M L K) (canonical : Bool) (s : NrSt M L K) : NrSt M L K :=
  if s.needsJacobian then
    { s with jacobian := nrJacobian P canonical s.w s.residual, newJacobian := true, needsJacobian := false,
             mixW := bump s.w (Fin.last M) (Fin.last L) }
  else s

/-- All trials of an iteration, `NrIterator.cpp:292-329`. -/
def nrTrials (P : NrProb M L K) (canonical : Bool) (s : NrSt M L K) : Trial M L K × Bool :=
  let t := nrTrial P canonical s.w (P.lu s.jacobian s.residual)
  let p := nrShrink P canonical s.w s.norm 3 t false
  nrReverse P canonical s.w s.norm p.1 p.2

/-- Main loop of `solve`, `NrIterator.cpp:270-366`. -/
def nrLoop (P : NrProb M L K) (canonical : Bool) : Nat → NrSt M L K → NrSt M L K × Nat
  | 0, s => (s, 1)
  | n + 1, s =>
    if s.norm < P.eps then (s, 0)
    else
      let s := nrPrepare P canonical s
      let p := nrTrials P canonical s
      let needs := s.needsJacobian || p.2
      if p.1.norm < s.norm then
        nrLoop P canonical n
          { s with w := p.1.w, c := p.1.c, mixW := p.1.w, residual := p.1.residual, norm := p.1.norm,
                   newJacobian := false, needsJacobian := needs || decide (1 / 2 < p.1.norm / s.norm) }
      else if s.newJacobian then ({ s with mixW := p.1.w, needsJacobian := needs }, 1)
      else nrLoop P canonical n { s with mixW := p.1.w, needsJacobian := true }

/-- `solve`, `NrIterator.cpp:227-367`, from fields `w`; `s` has the members before. -/
def nrSolve (P : NrProb M L K) (ens : List Ens) (isContinuation : Bool) (w : NFlds M L K) (s : NrSt M L K) :
    Res (NrSt M L K × Nat) :=
  (nrCanonical ens).bind fun canonical =>
    let w := shiftLast canonical w
    let c := P.mix w
    let r := nrResidual P canonical w c
    .ok (nrLoop P canonical P.maxItr
      { s with w := w, c := c, mixW := w, residual := r, norm := nrNorm r, newJacobian := false,
               needsJacobian := if isContinuation then s.needsJacobian else true })

end Nr

/-! ## Relaxation -/

section Relax

noncomputable section

variable {L : Nat}

/-- Fields of two monomers. -/
abbrev BFlds (L : Nat) := Fin 2 → Fin (L + 1) → ℝ

/-- What `BinaryRelaxIterator` uses. -/
structure BrProb (L : Nat) where
  chi : ℝ
  mix : BFlds L → BFlds L
  eps : ℝ

/-- `computeDW`, `BinaryRelaxIterator.cpp:71-101`: increments. -/
def brDW (P : BrProb L) (lp lm : ℝ) (w c : BFlds L) : BFlds L := fun j i =>
  let dWp := c 1 i + c 0 i - 1
  let dWm := 1 / 2 * (c 0 i - c 1 i - (w 1 i - w 0 i) / P.chi)
  if j = 0 then dWp * lp - dWm * lm else dWp * lp + dWm * lm

/-- `computeDW`: norm. -/
def brNorm (P : BrProb L) (w c : BFlds L) : ℝ :=
  let p := accum (L + 1) (fun i => (c 1 i + c 0 i - 1) * (c 1 i + c 0 i - 1)) 0
  let m := accum (L + 1) (fun i => (1 / 2 * (c 0 i - c 1 i - (w 1 i - w 0 i) / P.chi)) *
    (1 / 2 * (c 0 i - c 1 i - (w 1 i - w 0 i) / P.chi))) 0
  Real.sqrt ((p + m) / ((L + 1 : Nat) : ℝ))

/-- `updateWFields`, `BinaryRelaxIterator.cpp:103-132`. -/
def brUpdate (canonical : Bool) (w dW : BFlds L) : BFlds L :=
  let f : BFlds L := fun j i => w j i + dW j i
  if canonical then fun j i => f j i - f 1 (Fin.last L) else f

/-- Members during `solve`. -/
structure BrSt (L : Nat) where
  lp : ℝ
  lm : ℝ
  w : BFlds L
  c : BFlds L
  dW : BFlds L
  norm : ℝ

/-- A trial of the relaxation. -/
structure BrTrial (L : Nat) where
  lp : ℝ
  lm : ℝ
  w : BFlds L
  dW : BFlds L
  norm : ℝ

/-- The loop that reduces the increment, `BinaryRelaxIterator.cpp:206-224`. The norm is computed from the fields of
the system, not from the trial. -/
def brShrink (P : BrProb L) (canonical : Bool) (w c : BFlds L) (norm : ℝ) : Nat → BrTrial L → BrTrial L
  | 0, t => t
  | n + 1, t =>
    if norm < t.norm then
      let lp := t.lp * (1 / 2)
      let lm := t.lm * (1 / 2)
      let dW := brDW P lp lm w c
      brShrink P canonical w c norm n ⟨lp, lm, brUpdate canonical w dW, dW, brNorm P w c⟩
    else t

/-- Main loop of `solve`, `BinaryRelaxIterator.cpp:176-245`. -/
def brLoop (P : BrProb L) (canonical : Bool) : Nat → BrSt L → BrSt L × Nat
  | 0, s => (s, 1)
  | n + 1, s =>
    if s.norm < P.eps then (s, 0)
    else
      let w := brUpdate canonical s.w s.dW
      let c := P.mix w
      let t := brShrink P canonical s.w s.c s.norm 3 ⟨s.lp, s.lm, w, brDW P s.lp s.lm w c, brNorm P w c⟩
      if t.norm < s.norm then
        brLoop P canonical n ⟨t.lp, t.lm, t.w, P.mix t.w, t.dW, t.norm⟩
      else ({ s with lp := t.lp, lm := t.lm }, 1)

/-- `solve`, `BinaryRelaxIterator.cpp:134-246`, from fields `w` and the present mixing parameters. -/
def brSolve (P : BrProb L) (canonical : Bool) (maxItr : Nat) (lp lm : ℝ) (w : BFlds L) : BrSt L × Nat :=
  let w := if canonical then fun j i => w j i - w 1 (Fin.last L) else w
  let c := P.mix w
  brLoop P canonical maxItr ⟨lp, lm, w, c, brDW P lp lm w c, brNorm P w c⟩

end

end Relax

/-! ## Anderson mixing -/

section Am

noncomputable section

open Verif.Scft

variable {M L : Nat}

/-- `isCanonical`, `AmIterator.cpp:104-133`, from the ensembles of polymers and then solvents. -/
def amCanonical : List Ens → Res Bool
  | [] => .ok true
  | .opened :: _ => .ok false
  | .unknown :: _ => .throw
  | .closed :: r => amCanonical r

/-- `getResidual`, `AmIterator.cpp:135-166`. -/
def amResidual (P : Scft.Prob M) (s : Scft.St M L) (i : Fin M) (k : Fin L) : ℝ :=
  accum M (fun j => P.chi i j * s.ev.c j k - pMatrix P.inv i j * s.w j k) (-1 / sumChiInverse P.inv)

/-- `update`, `AmIterator.cpp:168-190`. -/
def amUpdate (P : Scft.Prob M) (canonical : Bool) (s : Scft.St M L) (y : AM.Vec ℝ (nElements P L)) : Scft.St M L :=
  let shift := arr P y (M * L - 1)
  { s with w := fun i k => if canonical then arr P y (i.val * L + k.val) - shift else arr P y (i.val * L + k.val) }

/-- The operations used by the Anderson-mixing algorithm. -/
def amSys (P : Scft.Prob M) (canonical : Bool) (E : (Fin M → Solver.Fld L ℝ) → (Nat → ℝ) → Scft.Eval M L) :
    AM.Sys (Scft.St M L) ℝ (nElements P L) where
  getCurrent := getCurrent P
  getResidual s := pack P (amResidual P s) (fun _ => 0)
  update := amUpdate P canonical
  evaluate := Scft.evaluate E

end

end Am

end Verif.R1d
