import Verif.Solver.Model
import Verif.Math.Tridiag

/-!
# Model of the one-dimensional solver

Sources: `/repo/src/r1d/domain/Domain.cpp`, `/repo/src/r1d/solvers/{Block,Propagator,Polymer,Solvent}.cpp`,
`/repo/src/pscf/solvers/PolymerTmpl.tpp:151-178`.

Exact arithmetic in a field `K`. Fields have `n = nx` elements; the capacity checks of arrays are not
represented. The factor `π` of the volume is a parameter.
-/

set_option autoImplicit false

namespace Verif.R1d

open Verif.Chem Verif.Solver

/-- `GeometryMode`, `domain/GeometryMode.h`. -/
inductive Mode where
  | planar | cylindrical | spherical
deriving DecidableEq, Repr

/-- Members of `Domain`, `domain/Domain.h:164-197`. -/
structure Domain (K : Type) where
  mode : Mode
  isShell : Bool
  xMin : K
  xMax : K
  dx : K
  volume : K
  nx : Nat

section Field

variable {K : Type} [Field K] [LinearOrder K]

/-- `computeVolume`, `Domain.cpp:93-114`. -/
def computeVolume (pi : K) (mode : Mode) (isShell : Bool) (xMin xMax : K) : K :=
  match mode with
  | .planar => xMax - xMin
  | .cylindrical =>
    let v := xMax * xMax
    let v := if isShell then v - xMin * xMin else v
    v * pi
  | .spherical =>
    let v := xMax * xMax * xMax
    let v := if isShell then v - xMin * xMin * xMin else v
    v * (pi * (4 / 3))

/-- `Domain::readParameters`, `Domain.cpp:28-46`, from the values in the file. -/
def Domain.read (pi : K) (mode : Mode) (xMin : Option K) (xMax : K) (nx : Nat) : Res (Domain K) :=
  let x0 := xMin.getD 0
  let shell := match mode with
    | .planar => false
    | _ => xMin.isSome
  if shell = true ∧ ¬ 0 < x0 then .throw
  else .ok ⟨mode, shell, x0, xMax, (xMax - x0) / ((nx : K) - 1),
    computeVolume pi mode shell x0 xMax, nx⟩

/-- `setPlanarParameters`, `Domain.cpp:48-57`. -/
def Domain.setPlanar (pi xMin xMax : K) (nx : Nat) : Domain K :=
  ⟨.planar, false, xMin, xMax, (xMax - xMin) / ((nx : K) - 1),
    computeVolume pi .planar false xMin xMax, nx⟩

/-- `setShellParameters`, `Domain.cpp:59-69`. -/
def Domain.setShell (pi : K) (mode : Mode) (xMin xMax : K) (nx : Nat) : Domain K :=
  ⟨mode, true, xMin, xMax, (xMax - xMin) / ((nx : K) - 1),
    computeVolume pi mode true xMin xMax, nx⟩

/-- `setCylinderParameters`, `Domain.cpp:71-80`. -/
def Domain.setCylinder (pi xMax : K) (nx : Nat) : Domain K :=
  ⟨.cylindrical, false, 0, xMax, xMax / ((nx : K) - 1),
    computeVolume pi .cylindrical false 0 xMax, nx⟩

/-- `setSphereParameters`, `Domain.cpp:82-91`. -/
def Domain.setSphere (pi xMax : K) (nx : Nat) : Domain K :=
  ⟨.spherical, false, 0, xMax, xMax / ((nx : K) - 1),
    computeVolume pi .spherical false 0 xMax, nx⟩

/-- `Domain::spatialAverage`, `Domain.cpp:119-196`. -/
def Domain.spatialAverage (d : Domain K) (f : Nat → K) : Res K :=
  if ¬ 1 < d.nx then .throw
  else if ¬ 0 < d.dx then .throw
  else if ¬ d.dx ≤ d.xMax - d.xMin then .throw
  else match d.mode with
  | .planar =>
    let sum := 0 + 1 / 2 * f 0
    let sum := accum (d.nx - 2) (fun i => f (i + 1)) sum
    let sum := sum + 1 / 2 * f (d.nx - 1)
    .ok (sum / ((d.nx - 1 : Nat) : K))
  | .cylindrical =>
    let x0 := d.xMin / d.dx
    let sum := if d.isShell then 0 + 1 / 2 * x0 * f 0 else 0 + f 0 / 8
    let norm : K := if d.isShell then 0 + 1 / 2 * x0 else 0 + 1 / 8
    let sum := accum (d.nx - 2) (fun i => (x0 + ((i + 1 : Nat) : K)) * f (i + 1)) sum
    let norm := accum (d.nx - 2) (fun i => x0 + ((i + 1 : Nat) : K)) norm
    let x := x0 + ((d.nx - 1 : Nat) : K)
    .ok ((sum + 1 / 2 * x * f (d.nx - 1)) / (norm + 1 / 2 * x))
  | .spherical =>
    let x0 := d.xMin / d.dx
    let sum := if d.isShell then 0 + 1 / 2 * x0 * x0 * f 0 else 0 + f 0 / 24
    let norm : K := if d.isShell then 0 + 1 / 2 * x0 * x0 else 0 + 1 / 24
    let sum := accum (d.nx - 2)
      (fun i => (x0 + ((i + 1 : Nat) : K)) * (x0 + ((i + 1 : Nat) : K)) * f (i + 1)) sum
    let norm := accum (d.nx - 2)
      (fun i => (x0 + ((i + 1 : Nat) : K)) * (x0 + ((i + 1 : Nat) : K))) norm
    let x := x0 + ((d.nx - 1 : Nat) : K)
    .ok ((sum + 1 / 2 * x * x * f (d.nx - 1)) / (norm + 1 / 2 * x * x))

/-- `Domain::innerProduct`, `Domain.cpp:201-218`. -/
def Domain.innerProduct (d : Domain K) (f g : Nat → K) : Res K :=
  d.spatialAverage (fun i => f i * g i)

/-! ## Block -/

/-- Square for spherical geometry, `Block.cpp:180-182`, `202-205`, `215-217`. -/
def sqIf (m : Mode) (r : K) : K := if m = .spherical then r * r else r

/-- Factor `rp` of the first row before multiplication by `c1`, `Block.cpp:177-192`. -/
def rp0 (d : Domain K) : K :=
  if d.isShell then sqIf d.mode (1 + 1 / 2 * d.dx / d.xMin)
  else if d.mode = .spherical then 3 else 2

/-- Factors `rp`, `rm` of an interior row, `Block.cpp:198-205`. -/
def rp (d : Domain K) (i : Nat) : K := sqIf d.mode (1 + 1 / 2 * d.dx / (d.xMin + d.dx * (i : K)))
@[inherit_doc rp]
def rm (d : Domain K) (i : Nat) : K := sqIf d.mode (1 - 1 / 2 * d.dx / (d.xMin + d.dx * (i : K)))

/-- Factor `rm` of the last row, `Block.cpp:213-217`. -/
def rmL (d : Domain K) : K := sqIf d.mode (1 - 1 / 2 * d.dx / d.xMax)

/-- Matrix `A` (`dA_`, `uA_`, `lA_`) built by `setupSolver`, `Block.cpp:145-238`. -/
def matA (d : Domain K) (ds kuhn : K) (w : Nat → K) : Math.Tri K :=
  let halfDs := 1 / 2 * ds
  let db := kuhn / d.dx
  let c1 := halfDs * db * db / 6
  let c2 := 2 * c1
  if d.mode = .planar then
    { d := fun i => halfDs * w i + c2 + 1
      u := fun i => if i = 0 then -c2 else -c1
      l := fun i => if i = d.nx - 2 then -c2 else -c1 }
  else
    { d := fun i =>
        (if i = 0 then halfDs * w i + 2 * (rp0 d * c1)
         else if i = d.nx - 1 then halfDs * w i + 2 * (rmL d * c1)
         else halfDs * w i + (rm d i * c1 + rp d i * c1)) + 1
      u := fun i => if i = 0 then -2 * (rp0 d * c1) else -(rp d i * c1)
      l := fun i => if i = d.nx - 2 then -2 * (rmL d * c1) else -(rm d (i + 1) * c1) }

/-- Matrix `B`, `Block.cpp:223-238`: `1 - (A - 1)`. -/
def matB (d : Domain K) (ds kuhn : K) (w : Nat → K) : Math.Tri K :=
  let A := matA d ds kuhn w
  { d := fun i => -(A.d i - 1) + 1, u := fun i => -A.u i, l := fun i => -A.l i }

/-- `Block::step`, `Block.cpp:300-309`, on fields given as functions of the index. -/
def step (n : Nat) (A B : Math.Tri K) (q : Nat → K) : Nat → K :=
  A.solve n (fun i =>
    if i = 0 then B.d 0 * q 0 + B.u 0 * q 1
    else if i = n - 1 then B.d (n - 1) * q (n - 1) + B.l (n - 2) * q (n - 2)
    else B.d i * q i + B.l (i - 1) * q (i - 1) + B.u i * q (i + 1))

/-- A block after `setupSolver`. -/
structure Block (K : Type) where
  A : Math.Tri K
  B : Math.Tri K
  ns : Nat
  ds : K
  length : K

/-- Number of contour points, `Block.cpp:53-56` and `81-84`. -/
def contourNs [FloorRing K] (length ds : K) : Int :=
  let ns := ⌊length / ds + 1 / 2⌋ + 1
  if ns.tmod 2 = 0 then ns + 1 else ns

/-- `setupSolver(w)` for a block, `Block.cpp:126-242`; `ds = length/(ns - 1)`. -/
def setupBlock (d : Domain K) (length kuhn : K) (ns : Nat) (w : Nat → K) : Block K :=
  let ds := length / ((ns : K) - 1)
  { A := matA d ds kuhn w, B := matB d ds kuhn w, ns := ns, ds := ds, length := length }

/-- `Propagator::solve` after `computeHead`, `Propagator.cpp:107-115`. -/
def slices (n : Nat) (b : Block K) (head : Nat → K) : Nat → Nat → K
  | 0 => head
  | j + 1 => step n b.A b.B (slices n b head j)

/-- `Propagator::computeHead`, `Propagator.cpp:80-102`; `none` if a source is not solved. -/
def computeHead (blk : Nat → Block K) (es : List Edge) (vs : List Vertex)
    (st : Pid → Option (Nat → Nat → K)) (p : Pid) : Option (Nat → K) :=
  (sources es vs p).foldl (fun acc s => match acc, st s with
    | some h, some q => some (fun i => h i * q ((blk s.1).ns - 1) i)
    | _, _ => none) (some (fun _ => 1))

/-- Loop over propagators of `PolymerTmpl::solve`, `PolymerTmpl.tpp:162-165`. -/
def solvePlan (n : Nat) (blk : Nat → Block K) (es : List Edge) (vs : List Vertex) :
    List Pid → (Pid → Option (Nat → Nat → K)) → Res (Pid → Option (Nat → Nat → K))
  | [], st => .ok st
  | p :: ps, st =>
    if (sources es vs p).all (fun s => (st s).isSome) then
      match computeHead blk es vs st p with
      | none => .throw
      | some h => solvePlan n blk es vs ps
          (fun q => if q = p then some (slices n (blk p.1) h) else st q)
    else .throw

/-- `Propagator::computeQ`, `Propagator.cpp:135-150`. -/
def computeQ (d : Domain K) (blk : Nat → Block K) (st : Pid → Option (Nat → Nat → K)) (p : Pid) :
    Res K :=
  match st p, st (p.1, !p.2) with
  | some q, some q' => d.innerProduct (q 0) (q' ((blk p.1).ns - 1))
  | _, _ => .throw

/-- `PolymerTmpl::solve`, `PolymerTmpl.tpp:151-178`, with `phiTot = 1` (default argument). -/
def polymerSolve (d : Domain K) (blk : Nat → Block K) (es : List Edge) (vs : List Vertex)
    (plan : List Pid) : Res ((Pid → Option (Nat → Nat → K)) × K) :=
  solvePlan d.nx blk es vs plan (fun _ => none) >>= fun st =>
    computeQ d blk st (0, false) >>= fun Q => .ok (st, Q / 1)

/-- `Block::computeConcentration`, `Block.cpp:247-291`. -/
def conc (b : Block K) (prefactor : K) (q0 q1 : Nat → Nat → K) (i : Nat) : K :=
  let c := 0 + 1 / 2 * q0 0 i * q1 (b.ns - 1) i
  let c := accum (b.ns - 2) (fun j => q0 (j + 1) i * q1 (b.ns - 1 - (j + 1)) i) c
  let c := c + 1 / 2 * q0 (b.ns - 1) i * q1 0 i
  c * (prefactor * b.ds)

/-- Block concentrations in `Polymer::compute`, `Polymer.cpp:49-54`. -/
def blockConc (blk : Nat → Block K) (st : Pid → Option (Nat → Nat → K)) (phi Q total : K)
    (k : Nat) : Option (Nat → K) :=
  match st (k, false), st (k, true) with
  | some q, some q' => some (conc (blk k) (phi / (Q * total)) q q')
  | _, _ => none

/-- `Solvent::compute`, `Solvent.cpp:42-76`: `e` holds the values `exp(-s w)`, `phiOf` is the volume
fraction after `setQ`. -/
def solventCompute (d : Domain K) (e : Nat → K) (phiOf : K → K) : Res (K × (Nat → K)) :=
  d.spatialAverage e >>= fun Q => .ok (Q, fun i => e i * (phiOf Q / Q))

end Field

end Verif.R1d
