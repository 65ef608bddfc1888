import Verif.Sweep.Model
import Verif.Sweep.Param

/-!
# Model of a sweep as a whole

`SweepTmpl::sweep` with the functions of the one-dimensional program `r1d`: parameters, guess, solution, reset and
history act on one system.  Sources: `/repo/src/pscf/sweep/SweepTmpl.tpp:61-147, 199-246`,
`/repo/src/r1d/sweep/{Sweep,LinearSweep,SweepParameter}.cpp`.

The solver is an arbitrary function of the number of the attempt, the parameters and the fields; it returns parameters
and fields also when it does not converge.  Fields are functions of monomer type and grid point.  Files and log are
represented by the list of accepted solutions (`getSolution` writes one set of files for each).  Values are exact.
-/

set_option autoImplicit false

namespace Verif.Sweep

variable {K : Type} [Field K] [LinearOrder K]

/-- `System::wFields`: monomer type, grid point. -/
abbrev Fields (K : Type) := Nat → Nat → K

/-- An accepted solution as written by `getSolution` and `outputSolution`, `Sweep.cpp:169-215`, with what it was
computed from: number of the attempt, parameters and fields before `solve`. -/
structure Rec (K : Type) where
  s : K
  n : Nat
  before : Store K
  guess : Fields K
  after : Store K
  w : Fields K

/-- Everything that a sweep changes. -/
structure Run (K : Type) where
  p : Store K
  w : Fields K
  hist : Hist K (Fields K)
  ds : K
  n : Nat
  out : List (Rec K)

/-- `solve`, `Sweep.cpp:150-151`: converged or not, parameters and fields afterwards. -/
abbrev Solver (K : Type) := Nat → Store K → Fields K → Bool × Store K × Fields K

/-- `extrapolate`, `Sweep.cpp:114-143`. -/
def guess (h : Hist K (Fields K)) (sNew : K) (w : Fields K) : Fields K :=
  if h.size > 1 then fun i j => extrapolated h.size h.sHist sNew (fun k => h.state k i j) else w

/-- End of one attempt; the memory is given also for exceptions. -/
inductive Outcome (K : Type) where
  | more (r : Run K)
  | finished (r : Run K)
  | thrown (r : Run K)
  | ub

/-- `accept`, `SweepTmpl.tpp:221-246`, with `getSolution`. -/
def Run.accepted (r : Run K) (x : Rec K) : Run K :=
  { r with p := x.after, w := x.w, hist := r.hist.accept x.s x.w, n := x.n + 1, out := x :: r.out }

/-- One attempt, `SweepTmpl.tpp:99-140`.  `l`: parameters with their initial values.  An exception in `setParameters`
leaves the parameters that were assigned before it; this is not represented (`r.p`). -/
def attempt1 (sv : Solver K) (l : List (Entry K × K)) (ds0 : K) (r : Run K) : Outcome K :=
  let sNew := r.hist.sHist 0 + r.ds
  match setParameters sNew l r.p with
  | .throw => .thrown r
  | .ub => .ub
  | .ok p =>
    let g := guess r.hist sNew r.w
    let x := sv r.n p g
    if x.1 then
      let r' := r.accepted ⟨sNew, r.n, p, g, x.2.1, x.2.2⟩
      if sNew + r.ds > 10000001 / 10000000 then .finished r' else .more r'
    else
      -- `reset`, `Sweep.cpp:159-160`
      let r' := { r with p := x.2.1, w := r.hist.state 0, ds := r.ds * (1 / 2), n := r.n + 1 }
      if r'.ds < 1 / 10 * ds0 then .thrown r' else .more r'

/-- `setup` and the first solution, `SweepTmpl.tpp:66-89`, `Sweep.cpp:89-99`, `LinearSweep.cpp:54-64`; the history has
three elements (`Sweep.cpp:25`).  The initial values `l` are those of `initials st`. -/
def start (sv : Solver K) (ns : Nat) (st : Store K) (w : Fields K) (states : Nat → Fields K) : Outcome K :=
  let x := sv 0 st w
  let r : Run K := ⟨x.2.1, x.2.2, Hist.init 3 states, 1 / (ns : K), 1, []⟩
  if x.1 then .more (r.accepted ⟨0, 0, st, w, x.2.1, x.2.2⟩) else .thrown r

/-- `LinearSweep::readParameters` of `r1d`, `LinearSweep.cpp:41-51`: `type()` (`SweepParameter.cpp:152-175`) throws for
a lattice parameter, the types `lambda` and `vMonomer` are not recognised (`SweepParameter.cpp:58-114`). -/
def readR1d [DecidableLT K] (l : List (Entry K)) : Res Unit :=
  if l.any (fun e => match e.par with | .cell _ => true | .lambda => true | .vMonomer => true | _ => false) then .throw
  else if -(1 / 1000000) < phiChange l 0 ∧ phiChange l 0 < 1 / 1000000 then .ok () else .throw

end Verif.Sweep
