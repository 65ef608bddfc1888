import Verif.Basic
import Mathlib.Algebra.Order.Field.Basic
import Mathlib.Algebra.BigOperators.Group.Finset.Basic

/-!
# Model of swept and ramped parameters

Sources: `/repo/src/rpc/scft/sweep/{SweepParameter,LinearSweep}.tpp`,
`/repo/src/rpc/fts/ramp/{RampParameter,LinearRamp}.tpp`,
`/repo/src/prdc/solvers/{MixtureModifierPrdc,MixturePrdc}.tpp`, `/repo/src/pscf/chem/{Species,Edge,SolventSpecies}.cpp`,
`/repo/src/pscf/inter/Interaction.cpp:78-87`. The classes in `/repo/src/rpg` have the same functions.

Indices are natural numbers (negative indices in a parameter file are not represented). Specialised parameters of an
environment are not represented.
-/

set_option autoImplicit false

namespace Verif.Sweep

/-- Types of parameters with their indices, `SweepParameter.h`, `RampParameter.h`; `lambda` and `vMonomer` exist for
ramps only. -/
inductive Par where
  | chi (i j : Nat)
  | kuhn (i : Nat)
  | phiP (i : Nat)
  | muP (i : Nat)
  | block (p b : Nat)
  | phiS (i : Nat)
  | muS (i : Nat)
  | size (i : Nat)
  | cell (i : Nat)
  | lambda
  | vMonomer
deriving DecidableEq

/-- Parameters of a system. `openP`, `openS`: ensemble of a species; `blkMon`, `blkKuhn`, `blkLen`: monomer type,
segment length and length of a block; `pert`: is there a perturbation. -/
structure Store (K : Type) where
  thread : Bool
  nM : Nat
  nP : Nat
  nS : Nat
  nBlock : Nat → Nat
  nCell : Nat
  openP : Nat → Bool
  openS : Nat → Bool
  pert : Bool
  blkMon : Nat → Nat → Nat
  chi : Nat → Nat → K
  kuhn : Nat → K
  blkKuhn : Nat → Nat → K
  blkLen : Nat → Nat → K
  phiP : Nat → K
  muP : Nat → K
  phiS : Nat → K
  muS : Nat → K
  size : Nat → K
  cell : Nat → K
  lambda : K
  vMonomer : K

variable {K : Type} [Field K] [LinearOrder K]

/-- `get_`, `SweepParameter.tpp:179-208`, `RampParameter.tpp:185-217`. Elements of `chi`, blocks and cell parameters
are accessed without a check of the index. -/
def Store.get (st : Store K) : Par → Res K
  | .chi i j => if i < st.nM ∧ j < st.nM then .ok (st.chi i j) else .ub
  | .kuhn i => if i < st.nM then .ok (st.kuhn i) else .throw
  | .phiP i => if i < st.nP then .ok (st.phiP i) else .throw
  | .muP i => if i < st.nP then .ok (st.muP i) else .throw
  | .block p b => if p < st.nP then (if b < st.nBlock p then .ok (st.blkLen p b) else .ub) else .throw
  | .phiS i => if i < st.nS then .ok (st.phiS i) else .throw
  | .muS i => if i < st.nS then .ok (st.muS i) else .throw
  | .size i => if i < st.nS then .ok (st.size i) else .throw
  | .cell i => if i < st.nCell then .ok (st.cell i) else .ub
  | .lambda => if st.pert then .ok st.lambda else .throw
  | .vMonomer => .ok st.vMonomer

/-- Replace one value. -/
def upd (f : Nat → K) (i : Nat) (v : K) : Nat → K := fun k => if k = i then v else f k

/-- `set_`, `SweepParameter.tpp:210-252`, `RampParameter.tpp:219-258`, with the setters it calls: `Species::setPhi`,
`setMu` (`Species.cpp:43-58`), `setKuhn` (`MixturePrdc.tpp:275-291`), `Edge::setLength` (`Edge.cpp:68-72`), `setChi`
(`Interaction.cpp:78-87`), `setVmonomer` (`MixtureBase.cpp:33-37`). The check of the index of a cell parameter in
`RampParameter` of `rpc` is not represented: `get_` is called first. -/
def Store.set (st : Store K) (v : K) : Par → Res (Store K)
  | .chi i j =>
    if i < st.nM ∧ j < st.nM then
      .ok { st with chi := fun a b => if (a = i ∧ b = j) ∨ (a = j ∧ b = i) then v else st.chi a b }
    else .ub
  | .kuhn i =>
    if i < st.nM then .ok { st with kuhn := upd st.kuhn i v,
                                    blkKuhn := fun p b => if st.blkMon p b = i then v else st.blkKuhn p b }
    else .throw
  | .phiP i =>
    if ¬ i < st.nP then .throw else if st.openP i then .throw else if ¬ 0 ≤ v then .throw
    else if ¬ v ≤ 1 then .throw else .ok { st with phiP := upd st.phiP i v }
  | .muP i =>
    if ¬ i < st.nP then .throw else if ¬ st.openP i then .throw else .ok { st with muP := upd st.muP i v }
  | .block p b =>
    if ¬ p < st.nP then .throw else if ¬ b < st.nBlock p then .ub else if ¬ st.thread then .throw
    else .ok { st with blkLen := fun a c => if a = p ∧ c = b then v else st.blkLen a c }
  | .phiS i =>
    if ¬ i < st.nS then .throw else if st.openS i then .throw else if ¬ 0 ≤ v then .throw
    else if ¬ v ≤ 1 then .throw else .ok { st with phiS := upd st.phiS i v }
  | .muS i =>
    if ¬ i < st.nS then .throw else if ¬ st.openS i then .throw else .ok { st with muS := upd st.muS i v }
  | .size i => if ¬ i < st.nS then .throw else .ok { st with size := upd st.size i v }
  | .cell i => if ¬ i < st.nCell then .ub else .ok { st with cell := upd st.cell i v }
  | .lambda => if st.pert then .ok { st with lambda := v } else .throw
  | .vMonomer => if ¬ 0 < v then .throw else .ok { st with vMonomer := v }

/-- A parameter of a sweep or ramp as read from file: what is changed and total change. -/
structure Entry (K : Type) where
  par : Par
  change : K

/-- Is the parameter a volume fraction. -/
def Par.isPhi : Par → Bool
  | .phiP _ => true
  | .phiS _ => true
  | _ => false

/-- Is the parameter an element of chi. -/
def Par.isChi : Par → Bool
  | .chi _ _ => true
  | _ => false

/-- Loop of `readParameters`, `LinearSweep.tpp:44-52`, `LinearRamp.tpp:41-49`. -/
def phiChange : List (Entry K) → K → K
  | [], sum => sum
  | e :: l, sum => phiChange l (if e.par.isPhi then sum + e.change else sum)

/-- Checks of `readParameters`, `LinearSweep.tpp:53-54`, `LinearRamp.tpp:50-51`. -/
def accepts (l : List (Entry K)) : Prop :=
  -(1 / 1000000) < phiChange l 0 ∧ phiChange l 0 < 1 / 1000000

/-- `setup`: initial values, `LinearSweep.tpp:66-70`, `LinearRamp.tpp:59-63`. -/
def initials (st : Store K) : List (Entry K) → Res (List K)
  | [] => .ok []
  | e :: l => (st.get e.par).bind fun v => (initials st l).bind fun vs => .ok (v :: vs)

/-- `LinearSweep::setParameters`, `LinearSweep.tpp:74-82`, and the same loop of `LinearRamp::setParameters`,
`LinearRamp.tpp:67-84`: pairs of entries and initial values. -/
def setParameters (s : K) : List (Entry K × K) → Store K → Res (Store K)
  | [], st => .ok st
  | (e, v) :: l, st => (st.set (v + s * e.change) e.par).bind fun st => setParameters s l st

/-- `LinearRamp::setParameters` with the call of `analyzeChi` after each element of chi, `LinearRamp.tpp:79-82`.
`an`: chi matrix at the last call of `analyzeChi`. -/
def rampParameters (s : K) : List (Entry K × K) → Store K → (Nat → Nat → K) → Res (Store K × (Nat → Nat → K))
  | [], st, an => .ok (st, an)
  | (e, v) :: l, st, an => (st.set (v + s * e.change) e.par).bind fun st =>
    rampParameters s l st (if e.par.isChi then st.chi else an)

/-- What happens to parameters in a sweep: `setParameters(s)`, and `solve`, which changes volume fractions of open
species, chemical potentials of closed ones and flexible lattice parameters. -/
inductive Act (K : Type) where
  | set (s : K)
  | solve (st' : Store K)

/-- Run a sequence. -/
def acts (l : List (Entry K × K)) : List (Act K) → Store K → Res (Store K)
  | [], st => .ok st
  | .set s :: as, st => (setParameters s l st).bind (acts l as)
  | .solve st' :: as, _ => acts l as st'

end Verif.Sweep
