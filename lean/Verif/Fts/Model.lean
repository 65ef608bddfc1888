import Verif.Basic

/-!
# Model of field theoretic simulations

Sources under `/repo/src/rpc/fts`: `simulator/Simulator.tpp`, `simulator/SimState.tpp`,
`montecarlo/{McSimulator,McMove,ForceBiasMove,RealMove,McMoveManager}.tpp`,
`brownian/{BdSimulator,ExplicitBdStep,LMBdStep,PredCorrBdStep}.tpp`, `ramp/LinearRamp.tpp`,
`analyzer/{AnalyzerManager,Analyzer,HamiltonianAnalyzer}.tpp`.

The numerical kernels are uninterpreted functions (`Phys`). Random numbers, the fields proposed by
a move and the fields reached by the compressor are inputs of each step, so a theorem for all
inputs covers every random sequence and every compressor. A compressor always ends with a solution
of the modified diffusion equation for the fields it leaves (`AmIteratorTmpl` and `LrCompressor`
call `system().compute()` after every change of fields), whether or not it converged.
-/

set_option autoImplicit false

namespace Verif.Fts

/-- Numerical kernels. `Θ` all parameters (interaction, mixture, unit cell, perturbation), `E`
eigenvectors and eigenvalues of the projected chi matrix, `W` w fields, `C` solution of the MDE,
`WC`, `CC`, `DC` field components, `H` Hamiltonian, `PE` energies stored by a perturbation, `R`
random numbers. -/
structure Phys (Θ E W C WC CC DC H PE R : Type) where
  /-- `analyzeChi`, `Simulator.tpp:296-457` -/
  eig : Θ → E
  /-- `system().compute()` -/
  solve : Θ → W → C
  /-- `computeWc`, `Simulator.tpp:464-495` -/
  wcOf : E → W → WC
  /-- `computeCc`, `Simulator.tpp:502-536` -/
  ccOf : E → C → CC
  /-- the loops of `computeDc`, `Simulator.tpp:549-574` -/
  dcOf : Θ → E → WC → CC → DC
  /-- `computeHamiltonian`, `Simulator.tpp:191-293` -/
  hamOf : Θ → E → C → WC → H
  /-- energies stored by `perturbation().hamiltonian()` -/
  pertOf : Θ → E → C → WC → PE
  /-- `random().metropolis(weight)`; `true` selects the weight of a force bias move, which depends
  on the forces before and after the move. -/
  metropolis : Bool → H → H → DC → DC → R → Bool

/-- `SimState`. -/
structure Saved (W WC CC DC H PE : Type) where
  w : W
  wc : WC
  cc : CC
  dc : DC
  ham : H
  pert : PE

/-- What is saved before a step, `SimState::needs*`. -/
structure Policy where
  cc : Bool
  dc : Bool
  ham : Bool

/-- A system with data in its w fields, and its simulator. -/
structure St (Θ E W C WC CC DC H PE : Type) where
  par : Θ
  ev : E
  w : W
  sol : C
  cHas : Bool
  wc : WC
  cc : CC
  dc : DC
  ham : H
  pert : PE
  hasWc : Bool
  hasCc : Bool
  hasDc : Bool
  hasHam : Bool
  slot : Saved W WC CC DC H PE
  slotHas : Bool

section
variable {Θ E W C WC CC DC H PE R : Type}
variable (P : Phys Θ E W C WC CC DC H PE R) (pol : Policy)

namespace St

/-- `Simulator::clearData`, `Simulator.tpp:179-185`. -/
def clearData (s : St Θ E W C WC CC DC H PE) : St Θ E W C WC CC DC H PE :=
  { s with hasHam := false, hasWc := false, hasCc := false, hasDc := false }

/-- `Simulator::analyzeChi`. -/
def analyzeChi (s : St Θ E W C WC CC DC H PE) : St Θ E W C WC CC DC H PE :=
  { s with ev := P.eig s.par }

/-- `System::compute` without stress. -/
def compute (s : St Θ E W C WC CC DC H PE) : St Θ E W C WC CC DC H PE :=
  { s with sol := P.solve s.par s.w, cHas := true }

/-- `system().w().setRGrid(w)`; its signal clears the c fields. -/
def setW (s : St Θ E W C WC CC DC H PE) (w : W) : St Θ E W C WC CC DC H PE :=
  { s with w := w, cHas := false }

/-- `compressor().compress()`, ending with the fields `w`. -/
def compress (s : St Θ E W C WC CC DC H PE) (w : W) : St Θ E W C WC CC DC H PE :=
  compute P (setW s w)

/-- `Simulator::computeWc`. -/
def computeWc (s : St Θ E W C WC CC DC H PE) : St Θ E W C WC CC DC H PE :=
  { s with wc := P.wcOf s.ev s.w, hasWc := true }

/-- `Simulator::computeCc`. -/
def computeCc (s : St Θ E W C WC CC DC H PE) : Res (St Θ E W C WC CC DC H PE) :=
  if s.cHas then .ok { s with cc := P.ccOf s.ev s.sol, hasCc := true } else .throw

/-- `Simulator::computeDc`, `Simulator.tpp:542-577`. -/
def computeDc (s : St Θ E W C WC CC DC H PE) : Res (St Θ E W C WC CC DC H PE) :=
  let s1 := if s.hasWc then s else computeWc P s
  (if s1.hasCc then .ok s1 else computeCc P s1) >>= fun s2 =>
    .ok { s2 with dc := P.dcOf s2.par s2.ev s2.wc s2.cc, hasDc := true }

/-- `Simulator::computeHamiltonian`, `Simulator.tpp:191-293`. -/
def computeHam (s : St Θ E W C WC CC DC H PE) : Res (St Θ E W C WC CC DC H PE) :=
  if s.cHas && s.hasWc then
    .ok { s with ham := P.hamOf s.par s.ev s.sol s.wc, pert := P.pertOf s.par s.ev s.sol s.wc,
                 hasHam := true }
  else .throw

/-- `Simulator::saveState`, `Simulator.tpp:585-632`. -/
def saveState (s : St Θ E W C WC CC DC H PE) : Res (St Θ E W C WC CC DC H PE) :=
  if !s.hasWc || s.slotHas || (pol.cc && !s.hasCc) || (pol.dc && !s.hasDc)
      || (pol.ham && !s.hasHam) then .throw
  else .ok { s with
    slot := ⟨s.w, s.wc, if pol.cc then s.cc else s.slot.cc, if pol.dc then s.dc else s.slot.dc,
      if pol.ham then s.ham else s.slot.ham, s.pert⟩,
    slotHas := true }

/-- `Simulator::restoreState`, `Simulator.tpp:641-683`. -/
def restoreState (s : St Θ E W C WC CC DC H PE) : Res (St Θ E W C WC CC DC H PE) :=
  if !s.slotHas then .throw
  else
    let s := setW s s.slot.w
    let s := if pol.ham then { s with ham := s.slot.ham, hasHam := true } else s
    let s := { s with wc := s.slot.wc, hasWc := true }
    let s := if pol.cc then { s with cc := s.slot.cc, hasCc := true } else s
    let s := if pol.dc then { s with dc := s.slot.dc, hasDc := true } else s
    .ok { s with pert := s.slot.pert, slotHas := false }

/-- `Simulator::clearState`, `Simulator.tpp:691`. -/
def clearState (s : St Θ E W C WC CC DC H PE) : St Θ E W C WC CC DC H PE :=
  { s with slotHas := false }

/-- Components computed after a move, `McMove.tpp:118-131`. -/
def components (s : St Θ E W C WC CC DC H PE) : Res (St Θ E W C WC CC DC H PE) :=
  let s := computeWc P s
  (if pol.cc || pol.dc then computeCc P s else .ok s) >>= fun s =>
  if pol.dc then computeDc P s else .ok s

/-- All components, `ForceBiasMove.tpp:183-185`. -/
def allComponents (s : St Θ E W C WC CC DC H PE) : Res (St Θ E W C WC CC DC H PE) :=
  computeCc P (computeWc P s) >>= computeDc P

/-- What a `HamiltonianAnalyzer` does, `HamiltonianAnalyzer.tpp:57-72`. -/
def observe (s : St Θ E W C WC CC DC H PE) : Res (St Θ E W C WC CC DC H PE) :=
  let s := if s.cHas then s else compute P s
  let s := if s.hasWc then s else computeWc P s
  if s.hasHam then .ok s else computeHam P s

end St

/-- Outcome of a Monte-Carlo move. -/
inductive Out where
  | failed
  | rejected
  | accepted
deriving DecidableEq

/-- Inputs of a Monte-Carlo move: fields proposed, fields left by the compressor, whether it
converged, random number. -/
structure Trial (W R : Type) where
  prop : W
  comp : W
  ok : Bool
  rnd : R

open St

/-- `McMove::move`, `McMove.tpp:85-156`, and `ForceBiasMove::move`, `ForceBiasMove.tpp:97-227`
(`fb = true`), without counters. -/
def move (fb : Bool) (t : Trial W R) (s : St Θ E W C WC CC DC H PE) :
    Res (St Θ E W C WC CC DC H PE × Out) :=
  if fb && !(s.hasWc && s.hasDc && s.hasHam) then .throw else
  let oldHam := s.ham
  let oldDc := s.dc
  saveState pol s >>= fun s =>
  let s := clearData s
  let s := setW s t.prop
  let s := if fb then clearData s else s
  let s := compress P s t.comp
  if !t.ok then
    restoreState pol s >>= fun s => .ok (s, .failed)
  else
    (if fb then allComponents P s else components P pol s) >>= fun s =>
    computeHam P s >>= fun s =>
    if P.metropolis fb oldHam s.ham oldDc s.dc t.rnd then .ok (clearState s, .accepted)
    else restoreState pol s >>= fun s => .ok (s, .rejected)

/-- The three Brownian dynamics algorithms. -/
inductive Bd where
  | explicit
  | lm
  | predCorr
deriving DecidableEq

/-- Inputs of a Brownian dynamics step; `prop2`, `comp2`, `ok2` are used by the corrector. The
displaced fields are arbitrary, so they cover the forces and noise of the code. -/
structure BdTrial (W : Type) where
  prop : W
  comp : W
  ok : Bool
  prop2 : W
  comp2 : W
  ok2 : Bool

/-- `ExplicitBdStep::step` (77-138), `LMBdStep::step` (138-202), `PredCorrBdStep::step` (98-227). -/
def bdStep (k : Bd) (t : BdTrial W) (s : St Θ E W C WC CC DC H PE) :
    Res (St Θ E W C WC CC DC H PE × Bool) :=
  saveState pol s >>= fun s =>
  let s := setW s t.prop
  let s := if k = .explicit then clearData s else s
  let s := compress P s t.comp
  if !t.ok then restoreState pol s >>= fun s => .ok (s, false)
  else match k with
  | .explicit => allComponents P (clearState s) >>= fun s => .ok (s, true)
  | .lm => allComponents P (clearData (clearState s)) >>= fun s => .ok (s, true)
  | .predCorr =>
    allComponents P (clearData s) >>= fun s =>
    let s := setW s t.prop2
    let s := compress P s t.comp2
    if !t.ok2 then restoreState pol s >>= fun s => .ok (s, false)
    else allComponents P (clearData (clearState s)) >>= fun s => .ok (s, true)

/-- One parameter in `LinearRamp::setParameters`, `LinearRamp.tpp:67-84`: the new parameters,
whether the parameter is an element of chi, whether it is a unit cell parameter (`setUnitCell` clears
the c fields). -/
def rampSet (θ : Θ) (isChi isCell : Bool) (s : St Θ E W C WC CC DC H PE) :
    St Θ E W C WC CC DC H PE :=
  let s := { s with par := θ, cHas := s.cHas && !isCell }
  if isChi then analyzeChi P s else s

/-- `McSimulator::setup` (101-152) with the setup of the moves (`McMove.tpp:63-79`);
`comp` are the fields left by the first compression. -/
def mcSetup (nMove : Nat) (comp : W) (s : St Θ E W C WC CC DC H PE) :
    Res (St Θ E W C WC CC DC H PE) :=
  let s := analyzeChi P s
  let s := compute P s
  let s := compress P s comp
  components P pol s >>= fun s =>
  computeHam P s >>= fun s =>
  (List.range nMove).foldlM (fun s _ =>
    components P pol (if pol.cc || pol.dc then compute P (computeWc P s) else s)) s

/-- `BdSimulator::setup` (118-163). -/
def bdSetup (comp : W) (s : St Θ E W C WC CC DC H PE) : Res (St Θ E W C WC CC DC H PE) :=
  let s := analyzeChi P s
  let s := compute P s
  let s := compress P s comp
  allComponents P s >>= computeHam P

/-- Events of a simulation after its setup. -/
inductive Ev (Θ W R : Type) where
  | mc (fb : Bool) (t : Trial W R)
  | bd (k : Bd) (t : BdTrial W)
  | observe
  | ramp (θ : Θ) (isChi isCell : Bool)

/-- One event. -/
def evStep (s : St Θ E W C WC CC DC H PE) : Ev Θ W R → Res (St Θ E W C WC CC DC H PE)
  | .mc fb t => Res.map Prod.fst (move P pol fb t s)
  | .bd k t => Res.map Prod.fst (bdStep P pol k t s)
  | .observe => observe P s
  | .ramp θ c u => .ok (rampSet P θ c u s)

/-- A sequence of events. -/
def evRun : List (Ev Θ W R) → St Θ E W C WC CC DC H PE → Res (St Θ E W C WC CC DC H PE)
  | [], s => .ok s
  | e :: es, s => evStep P pol s e >>= evRun es

/-- `McSimulator::readParameters` 89-98: what is saved when the moves are `fbs` (force bias or not). No
move of the code asks for `cc`. -/
def mcPolicy (fbs : List Bool) : Policy := ⟨false, fbs.any id, true⟩

/-- `BdSimulator::readParameters` 103-113 with the defaults of `BdStep.h:79-90`. -/
def bdPolicy : Policy := ⟨false, true, false⟩

end

/-! ## Counters and sampling -/

/-- Statistics of a move. -/
structure Count where
  attempt : Nat
  accept : Nat
  fail : Nat
deriving DecidableEq

/-- Counters changed by a move. -/
def Count.add (c : Count) : Out → Count
  | .failed => ⟨c.attempt + 1, c.accept, c.fail + 1⟩
  | .rejected => ⟨c.attempt + 1, c.accept, c.fail⟩
  | .accepted => ⟨c.attempt + 1, c.accept + 1, c.fail⟩

/-- Analyzers of a simulation: `Analyzer::baseInterval` and the interval of each analyzer. -/
structure Ana where
  base : Int
  intervals : List Int

/-- `Analyzer::readInterval`, `Analyzer.tpp:51-75`, for one analyzer. -/
def readInterval (base interval : Int) : Bool :=
  decide (base ≠ 0) && decide (¬ base < 0) && decide (interval ≠ 0) && decide (¬ interval < 0) &&
    decide (interval.tmod base = 0)

/-- Analyzers after reading: without an `AnalyzerManager` block the base interval is 0
(`McSimulator.tpp:86`), with one it is the value read. -/
def readAna : Option (Int × List Int) → Res Ana
  | none => .ok ⟨0, []⟩
  | some (base, ivs) => if ivs.all (readInterval base) then .ok ⟨base, ivs⟩ else .throw

/-- `AnalyzerManager::sample`, `AnalyzerManager.tpp:65-72`: the analyzers that record a value
(`isAtInterval`), as pairs of step and analyzer index. -/
def Ana.sample (a : Ana) (iStep : Int) : Res (List (Int × Nat)) :=
  if ¬ a.base > 0 then .throw
  else if iStep.tmod a.base ≠ 0 then .throw
  else .ok (((List.range a.intervals.length).filter
    (fun j => decide (iStep.tmod (a.intervals.getD j 1) = 0))).map (fun j => (iStep, j)))

/-- Sampling after a converged step, `McSimulator.tpp:194-203`, `BdSimulator.tpp:205-214`. -/
def Ana.after (a : Ana) (iStep : Int) : Res (List (Int × Nat)) :=
  if a.base ≠ 0 ∧ iStep.tmod a.base = 0 ∧ a.intervals.length > 0 then a.sample iStep
  else .ok []

/-- Main loop of `simulate`, `McSimulator.tpp:180-209`, `BdSimulator.tpp:192-221`:
`conv` tells which steps converge. Result: final `iStep` and samples. -/
def simLoop (a : Ana) : List Bool → Int → List (Int × Nat) → Res (Int × List (Int × Nat))
  | [], i, log => .ok (i, log)
  | true :: cs, i, log => a.after (i + 1) >>= fun l => simLoop a cs (i + 1) (log ++ l)
  | false :: cs, i, log => simLoop a cs i log

/-- `McSimulator::simulate` 158-280: the initial sample is unconditional. -/
def mcSimulate (a : Ana) (conv : List Bool) : Res (Int × List (Int × Nat)) :=
  a.sample 0 >>= fun l => simLoop a conv 0 l

/-- `BdSimulator::simulate` 169-260: the initial sample needs an analyzer. -/
def bdSimulate (a : Ana) (conv : List Bool) : Res (Int × List (Int × Nat)) :=
  (if a.intervals.length > 0 then a.sample 0 else .ok []) >>= fun l => simLoop a conv 0 l

/-- Loop of `analyze`, `McSimulator.tpp:308-326`, `BdSimulator.tpp:293-312`, over the frames left in
the file. `minStep`, `maxStep` are the arguments. -/
def analyzeLoop (a : Ana) (minStep maxStep : Int) :
    Nat → Int → List (Int × Nat) → Res (Int × List (Int × Nat))
  | 0, i, log => .ok (i, log)
  | frames + 1, i, log =>
    if i ≤ maxStep then
      if i ≥ minStep then a.sample i >>= fun l => analyzeLoop a minStep maxStep frames (i + 1) (log ++ l)
      else analyzeLoop a minStep maxStep frames (i + 1) log
    else .ok (i, log)

/-- `analyze(min, max, …)` of a trajectory with `frames` frames: final `iStep` and samples. -/
def analyze (a : Ana) (minStep maxStep : Int) (frames : Nat) : Res (Int × List (Int × Nat)) :=
  if ¬ (minStep ≥ 0 ∧ maxStep ≥ minStep ∧ a.base > 0 ∧ a.intervals.length > 0) then .throw
  else analyzeLoop a minStep maxStep frames 0 []

end Verif.Fts
