import Verif.Loop
import Verif.Chem.Model
import Mathlib.Algebra.Order.Floor.Defs
import Mathlib.Algebra.Order.Field.Basic

/-!
# Model of the solvers of the modified diffusion equation

Sources: `/repo/src/rpc/solvers/{Block,Propagator,Polymer,Solvent}.tpp`,
`/repo/src/pscf/solvers/PolymerTmpl.tpp`.

Fields are functions on `n` grid points with values in a field `K` (exact arithmetic). The
sequence "forward FFT, multiply by a real array, inverse FFT" is one operation
`kin : (array on the DFT mesh) → field → field`; its definition by a discrete Fourier sum is in
`Verif.Solver.Dft`. The arrays `expW`, … are data of the model; their values are in `Dft` too.
-/

namespace Verif.Solver

open Verif.Chem

/-- A field on the real space grid. -/
abbrev Fld (n : Nat) (K : Type) := Fin n → K

section Model

variable {K : Type} [Field K] {n : Nat} {κ : Type}

/-- Work arrays of a `Block` (`Block.h`): exponentials of the field and of the squared
wave numbers. -/
structure Arrays (K : Type) (n : Nat) (κ : Type) where
  expW : Fld n K
  expW2 : Fld n K
  expWInv : Fld n K
  expKsq : κ → K
  expKsq2 : κ → K

/-- FFT, multiplication by a real array, inverse FFT. -/
abbrev Kin (K : Type) (n : Nat) (κ : Type) := (κ → K) → Fld n K → Fld n K

variable (kin : Kin K n κ) (b : Arrays K n κ)

/-- `Block::stepThread`, `Block.tpp:277-347`. -/
def stepThread (q : Fld n K) : Fld n K :=
  let qr : Fld n K := fun i => q i * b.expW i
  let qr2 : Fld n K := fun i => q i * b.expW2 i
  let qr := kin b.expKsq qr
  let qr2 := kin b.expKsq2 qr2
  let qr : Fld n K := fun i => qr i * b.expW i
  let qr2 : Fld n K := fun i => qr2 i * b.expW i
  let qr2 := kin b.expKsq2 qr2
  let qr2 : Fld n K := fun i => qr2 i * b.expW2 i
  fun i => (4 * qr2 i - qr i) / 3

/-- `Block::stepFieldBead`, `Block.tpp:416-428`. -/
def stepFieldBead (q : Fld n K) : Fld n K := fun i => q i * b.expW i

/-- `Block::stepBead`, `Block.tpp:353-358`, with `stepBondBead` 364-384. -/
def stepBead (q : Fld n K) : Fld n K := stepFieldBead b (kin b.expKsq q)

/-- `Block::stepHalfBondBead`, `Block.tpp:390-410`. -/
def stepHalfBondBead (q : Fld n K) : Fld n K := kin b.expKsq2 q

/-- The slices computed by `Propagator::solve` in the thread model,
`Propagator.tpp:144-149`. -/
def slicesThread (head : Fld n K) : Nat → Fld n K
  | 0 => head
  | j + 1 => stepThread kin b (slicesThread head j)

/-- Slices `1, 2, …, ns - 2` of the bead model, `Propagator.tpp:154-166`. -/
def beads (headEnd : Bool) (head : Fld n K) : Nat → Fld n K
  | 0 => stepFieldBead b (if headEnd then head else stepHalfBondBead kin b head)
  | j + 1 => stepBead kin b (beads headEnd head j)

/-- The slices computed by `Propagator::solve` in the bead model, `Propagator.tpp:152-174`
(`ns ≥ 3`). -/
def slicesBead (ns : Nat) (headEnd tailEnd : Bool) (head : Fld n K) (j : Nat) : Fld n K :=
  if j = 0 then head
  else if j = ns - 1 then
    (if tailEnd then beads kin b headEnd head (ns - 3)
     else stepHalfBondBead kin b (beads kin b headEnd head (ns - 3)))
  else beads kin b headEnd head (j - 1)

/-- Spatial sum of a product, the loop of `computeQ`. -/
def prodSum (x y : Fld n K) : K := accum n (fun i => x i * y i) 0

/-- `Propagator::computeQ`, `Propagator.tpp:243-276`, for a propagator with slices `q` and a
partner with slices `q'`. -/
def computeQ (bead headEnd : Bool) (ns : Nat) (q q' : Nat → Fld n K) : K :=
  (if bead && headEnd then accum n (fun i => q' (ns - 2) i) 0
   else prodSum (q 0) (q' (ns - 1))) / (n : K)

/-- `for (; j < stop; j += 2) acc += f(j)`. -/
def loop2 (f : Nat → K) (j stop : Nat) (acc : K) : K :=
  if j < stop then loop2 f (j + 2) stop (acc + f j) else acc
termination_by stop - j

/-- `Block::computeConcentrationThread`, `Block.tpp:434-490`. -/
def concThread (ns : Nat) (ds prefactor : K) (q0 q1 : Nat → Fld n K) : Fld n K := fun i =>
  let c := 0 + q0 0 i * q1 (ns - 1) i
  let c := c + q0 (ns - 1) i * q1 0 i
  let c := loop2 (fun j => q0 j i * q1 (ns - 1 - j) i * 4) 1 (ns - 1) c
  let c := loop2 (fun j => q0 j i * q1 (ns - 1 - j) i * 2) 2 (ns - 2) c
  c * (prefactor * (ds / 3))

/-- `Block::computeConcentrationBead`, `Block.tpp:496-531`. -/
def concBead (ns : Nat) (prefactor : K) (q0 q1 : Nat → Fld n K) : Fld n K := fun i =>
  (accum (ns - 2) (fun k => q0 (k + 1) i * q1 (ns - 1 - (k + 1)) i * b.expWInv i) 0) * prefactor

end Model

/-! ## Polymers -/

section Polymer

variable {K : Type} [Field K] {n : Nat} {κ : Type}

/-- One block of a polymer: its arrays, number of slices and contour step. -/
structure BlockData (K : Type) (n : Nat) (κ : Type) where
  arrays : Arrays K n κ
  ns : Nat
  ds : K

/-- `isHeadEnd`: the head vertex belongs to one block, `PolymerTmpl.tpp:100`. -/
def headEnd (es : List Edge) (vs : List Vertex) (p : Pid) : Bool :=
  decide ((inIds vs (vid (edge es p.1) p.2)).length = 1)

/-- `isTailEnd`. -/
def tailEnd (es : List Edge) (vs : List Vertex) (p : Pid) : Bool :=
  decide ((inIds vs (vid (edge es p.1) (!p.2))).length = 1)

/-- `Propagator::solve` after `computeHead`, `Propagator.tpp:136-182`. -/
def solveFrom (kin : Kin K n κ) (bead : Bool) (blk : Nat → BlockData K n κ) (es : List Edge)
    (vs : List Vertex) (p : Pid) (head : Fld n K) : Nat → Fld n K :=
  if bead then
    slicesBead kin (blk p.1).arrays (blk p.1).ns (headEnd es vs p) (tailEnd es vs p) head
  else slicesThread kin (blk p.1).arrays head

/-- `Propagator::computeHead`, `Propagator.tpp:91-117`; `none` if a source is not solved. -/
def computeHead (blk : Nat → BlockData K n κ) (es : List Edge) (vs : List Vertex)
    (st : Pid → Option (Nat → Fld n K)) (p : Pid) : Option (Fld n K) :=
  if headEnd es vs p then some (fun _ => 1)
  else (sources es vs p).foldl (fun acc s => match acc, st s with
      | some h, some q => some (fun i => h i * q ((blk s.1).ns - 1) i)
      | _, _ => none) (some (fun _ => 1))

/-- The loop over the plan in `PolymerTmpl::solve`, `PolymerTmpl.tpp:162-165`. -/
def solvePlan (kin : Kin K n κ) (bead : Bool) (blk : Nat → BlockData K n κ) (es : List Edge)
    (vs : List Vertex) : List Pid → (Pid → Option (Nat → Fld n K)) →
    Res (Pid → Option (Nat → Fld n K))
  | [], st => .ok st
  | p :: ps, st =>
    if (sources es vs p).all (fun s => (st s).isSome) then
      match computeHead blk es vs st p with
      | none => .throw
      | some h => solvePlan kin bead blk es vs ps
          (fun q => if q = p then some (solveFrom kin bead blk es vs p h) else st q)
    else .throw

/-- `PolymerTmpl::solve`, `PolymerTmpl.tpp:151-178`: propagators and `Q` corrected for partial
occupation. -/
def polymerSolve (kin : Kin K n κ) (bead : Bool) (blk : Nat → BlockData K n κ) (es : List Edge)
    (vs : List Vertex) (plan : List Pid) (phiTot : K) :
    Res ((Pid → Option (Nat → Fld n K)) × K) :=
  solvePlan kin bead blk es vs plan (fun _ => none) >>= fun st =>
    match st (0, false), st (0, true) with
    | some q, some q' =>
      .ok (st, computeQ bead (headEnd es vs (0, false)) (blk 0).ns q q' / phiTot)
    | _, _ => .throw

/-- Block concentrations in `Polymer::compute`, `Polymer.tpp:62-78`, for volume fraction `phi`
(after `setQ`), partition function `Q` and total length (or bead number) `total`. -/
def blockConc (bead : Bool) (blk : Nat → BlockData K n κ)
    (st : Pid → Option (Nat → Fld n K)) (phi Q total : K) (k : Nat) : Option (Fld n K) :=
  match st (k, false), st (k, true) with
  | some q, some q' => some (
      if bead then concBead (blk k).arrays (blk k).ns (phi / (Q * total)) q q'
      else concThread (blk k).ns (blk k).ds (phi / (Q * total)) q q')
  | _, _ => none

/-- `Solvent::compute`, `Solvent.tpp:56-99`: `e` holds the values `exp(-s w)`; `setQ` gives
the volume fraction as a function of `Q` (`Species::setQ`). -/
def solventConc (e : Fld n K) (phiTot : K) (phiOf : K → K) : K × Fld n K :=
  let Q := accum n (fun i => e i) 0
  let Q := Q / (n : K)
  let Q := Q / phiTot
  let prefactor := phiOf Q / Q
  (Q, fun i => e i * prefactor)

end Polymer

/-! ## Contour discretisation -/

section Contour

variable {K : Type} [Field K] [LinearOrder K] [FloorRing K]

/-- Number of contour points of a thread block, `Block.tpp:128-132`, `164-168`. Conversion of
the rounded value to `int` is exact here. -/
def contourNs (length ds : K) : Int :=
  let t := ⌊length / (2 * ds) + 1 / 2⌋
  let t := if t = 0 then 1 else t
  2 * t + 1

/-- The contour step, `Block.tpp:133`, `169`. -/
def contourDs (length : K) (ns : Int) : K := length / ((ns - 1 : Int) : K)

/-- The state of a block related to its contour and to the array `expKsq_`. `C` is the unit
cell. -/
structure Blk (K C : Type) where
  length : K
  nBead : Int
  kuhn : K
  cell : C
  alloc : Bool
  dsTarget : K
  ns : Int
  ds : K
  propNs : Int
  hasExp : Bool
  exps : Option (K × K × C)

namespace Blk

variable {C : Type}

/-- A block after its length, bead number and segment length were read. -/
def init (length : K) (nBead : Int) (kuhn : K) (cell : C) : Blk K C :=
  ⟨length, nBead, kuhn, cell, false, -1, -1, -1, 0, false, none⟩

/-- `Block::allocate`, `Block.tpp:90-146`. -/
def allocate (bead : Bool) (s : Blk K C) (ds : K) : Res (Blk K C) :=
  if ¬ 0 < ds then .throw
  else if s.alloc then .throw
  else if bead then
    .ok { s with dsTarget := ds, ds := 1, ns := s.nBead + 2, propNs := s.nBead + 2,
                 alloc := true, hasExp := false }
  else if ¬ 0 < s.length then .throw
  else
    let ns := contourNs s.length ds
    .ok { s with dsTarget := ds, ds := contourDs s.length ns, ns := ns, propNs := ns,
                 alloc := true, hasExp := false }

/-- `Block::setLength`, `Block.tpp:152-179`. The new length is not checked. -/
def setLength (bead : Bool) (s : Blk K C) (len : K) : Res (Blk K C) :=
  if bead then .throw
  else if s.alloc then
    if ¬ 0 < s.dsTarget then .throw
    else
      let ns := contourNs len s.dsTarget
      .ok { s with length := len, ns := ns, ds := contourDs len ns,
                   propNs := if s.ns ≠ ns then ns else s.propNs, hasExp := false }
  else .ok { s with length := len, hasExp := false }

/-- `Block::setKuhn`, `Block.tpp:184-189`. -/
def setKuhn (s : Blk K C) (b : K) : Blk K C := { s with kuhn := b, hasExp := false }

/-- A change of the unit cell followed by `clearUnitCellData`, `Block.tpp:194-199`. -/
def setCell (s : Blk K C) (c : C) : Blk K C := { s with cell := c, hasExp := false }

/-- `Block::setupSolver`, `Block.tpp:241-270` with `computeExpKsq` 204-235. The arrays are
represented by the numbers they are computed from: segment length, contour step, unit cell. -/
def setup (s : Blk K C) : Res (Blk K C) :=
  if !s.alloc then .throw
  else if s.hasExp then .ok s
  else .ok { s with exps := some (s.kuhn, s.ds, s.cell), hasExp := true }

end Blk

/-- Calls on a block. -/
inductive BlkOp (K C : Type) where
  | allocate (ds : K)
  | setLength (len : K)
  | setKuhn (b : K)
  | setCell (c : C)
  | setup

/-- One call; a call that throws leaves the state as it is, except that `setLength` has already
changed the length when the later check fails (impossible for an allocated block). -/
def Blk.step {C : Type} (bead : Bool) (s : Blk K C) : BlkOp K C → Res (Blk K C)
  | .allocate ds => s.allocate bead ds
  | .setLength len => s.setLength bead len
  | .setKuhn b => .ok (s.setKuhn b)
  | .setCell c => .ok (s.setCell c)
  | .setup => s.setup

/-- A sequence of calls; those that throw have no effect. -/
def Blk.run {C : Type} (bead : Bool) : List (BlkOp K C) → Blk K C → Blk K C
  | [], s => s
  | op :: ops, s => match s.step bead op with
    | .ok s1 => Blk.run bead ops s1
    | _ => Blk.run bead ops s

end Contour

end Verif.Solver
