import Verif.Basic

/-!
# Model of the caches of a `System`

Sources: `/repo/src/prdc/system/SystemTmpl.tpp`, `ScftThermoTmpl.tpp`,
`/repo/src/prdc/solvers/MixturePrdc.tpp`, `/repo/src/prdc/environment/Environment.{h,cpp}`,
`/repo/src/pscf/environment/MixAndMatchEnvTmpl.tpp`.

The numerical work is abstract: `Phys` bundles one function for each computation, with exactly
the arguments the code reads. The model keeps every value and every "has data" flag, so a claim
such as "the reported concentrations belong to the current fields" is a statement about values.

Simplifications: mesh, lattice system, group and basis are fixed and allocated, an iterator
exists, and file formats are not represented (a file read is the sequence of changes it makes).
-/

namespace Verif.Sys

/-- The numerical computations of a system with w fields `W`, external fields `H`, mask `M`,
unit cell `C`, interaction parameters `X`, mixture parameters `P`, environment parameters `Q`,
solver results `S` (propagators, q, mu, phi), concentration fields `R` and their basis form `B`,
free energies `F`, stresses `T`. -/
structure Phys (W H M C X P Q S R B F T : Type) where
  /-- `Mixture::compute(w, c, phiTot)`: propagators, partition functions. -/
  solve : W → M → C → P → S
  /-- concentration fields accumulated by `Mixture::compute`. -/
  conc : S → R
  /-- `convertRGridToBasis`. -/
  toBasis : R → B
  /-- `ScftThermoTmpl::compute`, which reads species data (part of `S`), `w`, `c`, `h`,
  `mask`, `chi` and mixture parameters. -/
  thermo : S → W → R → H → M → C → X → P → F
  /-- `MixturePrdc::computeStress(phiTot)`: from the stored propagators. -/
  stress : S → M → C → P → T
  /-- `Environment::modifyStress`, from the mixture stress, the fields and the parameters. -/
  envStress : T → W → H → M → C → X → Q → T
  /-- `Environment::generate`: the fields afterwards, and whether a generator threw. -/
  generate : C → Q → H → M → H × M × Bool

/-- State of a `System`. -/
structure St (W H M C X P Q S R B F T : Type) where
  w : W
  wHas : Bool
  wSym : Bool
  h : H
  mask : M
  cell : C
  chi : X
  par : P
  /-- result of the last `Mixture::compute`, kept by polymers and blocks. -/
  sol : Option S
  c : Option R
  cBasis : Option B
  cHas : Bool
  cSym : Bool
  f : Option F
  fHas : Bool
  mixHas : Bool
  mixStress : Option T
  hasEnv : Bool
  envPar : Q
  envNeeds : Bool
  envHas : Bool
  envStress : Option T

variable {W H M C X P Q S R B F T : Type}

local notation "State" => St W H M C X P Q S R B F T
local notation "Physics" => Phys W H M C X P Q S R B F T

namespace St

/-- A new system with no fields and no results (constructors; `hasEnv` after
`readParameters`). -/
def init (w : W) (h : H) (m : M) (cell : C) (chi : X) (par : P) (q : Q) (hasEnv : Bool) :
    State :=
  ⟨w, false, false, h, m, cell, chi, par, none, none, none, false, false, none, false, false,
    none, hasEnv, q, true, false, none⟩

/-- `clearCFields`, `SystemTmpl.tpp:941-945`, with `CFields::setHasData(false)` (which also
clears `isSymmetric`) and `ScftThermoTmpl::clear` 255. -/
def clearCFields (s : State) : State := { s with cHas := false, cSym := false, fHas := false }

/-- `Environment::reset`, `Environment.cpp:23-29`, if there is an environment. -/
def resetEnv (s : State) : State :=
  if s.hasEnv then { s with envNeeds := true, envHas := false, envStress := none } else s

/-- `clearUnitCellData`, `SystemTmpl.tpp:1012-1020`, with `MixturePrdc::clearUnitCellData`
(`MixturePrdc.tpp:297-306`). The wave list is modelled in `Verif.Crystal.WaveListModel`. -/
def clearUnitCellData (s : State) : State :=
  { s.clearCFields with mixHas := false, mixStress := none }.resetEnv

/-- Assignment to the unit cell, whose signal runs `clearUnitCellData`
(`SystemTmpl.tpp:122-124`, `UnitCell.tpp` signal). -/
def setCell (s : State) (p : C) : State := { s with cell := p }.clearUnitCellData

/-- A completed modification of the w fields, whose signal runs `clearCFields`
(`SystemTmpl.tpp:130-131`). -/
def setW (s : State) (w : W) (sym : Bool) : State :=
  { s with w := w, wHas := true, wSym := sym }.clearCFields

/-- A completed modification of the external fields (`SystemTmpl.tpp:133-134`). -/
def setH (s : State) (h : H) : State := { s with h := h }.clearCFields

/-- A completed modification of the mask (`SystemTmpl.tpp:136-137`). -/
def setMask (s : State) (m : M) : State := { s with mask := m }.clearCFields

/-- Result of a call: the state afterwards and whether an exception was thrown. -/
abbrev Call (σ : Type) := σ × Bool

/-- Sequence of two calls: an exception skips the second. -/
def andThen (r : Call State) (g : State → Call State) : Call State :=
  if r.2 then r else g r.1

/-- `if (hasEnvironment()) if (environment().needsUpdate()) environment().generate()`,
`SystemTmpl.tpp:811-815`, `873-877`; `generate` is `MixAndMatchEnvTmpl.tpp:117-126`. The generated
fields are stored with `setH`/`setMask`, so their signals run. -/
def updateEnv (E : Physics) (s : State) : Call State :=
  if s.hasEnv && s.envNeeds then
    match E.generate s.cell s.envPar s.h s.mask with
    | (h, m, true) => ((s.setH h).setMask m, true)
    | (h, m, false) => ({ (s.setH h).setMask m with envNeeds := false }, false)
  else (s, false)

/-- `MixturePrdc::computeStress`, `MixturePrdc.tpp:230-268`; before any solution there are no
propagators to use. -/
def mixtureStress (E : Physics) (s : State) : Call State :=
  match s.sol with
  | none => (s, true)
  | some x =>
    ({ s with mixStress := some (E.stress x s.mask s.cell s.par), mixHas := true }, false)

/-- `Environment::computeStress`, `Environment.h:175-204`. -/
def environmentStress (E : Physics) (s : State) : Call State :=
  if s.envHas then (s, false)
  else if s.envNeeds || !s.mixHas then (s, true)
  else match s.mixStress with
    | none => (s, true)
    | some t =>
      ({ s with envStress := some (E.envStress t s.w s.h s.mask s.cell s.chi s.envPar),
                envHas := true }, false)

/-- `SystemTmpl::computeStress`, `SystemTmpl.tpp:839-853`. -/
def computeStress (E : Physics) (s : State) : Call State :=
  andThen (if !s.mixHas then s.mixtureStress E else (s, false)) fun s1 =>
    if s1.hasEnv then (if !s1.envHas then s1.environmentStress E else (s1, false))
    else (s1, false)

/-- The part of `compute` after the environment is up to date, `SystemTmpl.tpp:817-828`;
`Mixture::compute` resets the mixture's `hasStress`. -/
def solveMde (E : Physics) (s : State) : State :=
  let x := E.solve s.w s.mask s.cell s.par
  let s1 := { s with sol := some x, mixHas := false, c := some (E.conc x), cHas := true,
                     fHas := false }
  if s.wSym then { s1 with cBasis := some (E.toBasis (E.conc x)), cSym := true } else s1

/-- `SystemTmpl::compute`, `SystemTmpl.tpp:799-833`. -/
def compute (E : Physics) (needStress : Bool) (s : State) : Call State :=
  if !s.wHas then (s, true)
  else andThen (s.clearCFields.updateEnv E) fun s1 =>
    if needStress then (s1.solveMde E).computeStress E else (s1.solveMde E, false)

/-- `ScftThermoTmpl::compute`, `ScftThermoTmpl.tpp:53-249`. -/
def thermoCompute (E : Physics) (s : State) : Call State :=
  if s.fHas then (s, false)
  else if !s.wHas || !s.cHas then (s, true)
  else match s.sol, s.c with
    | some x, some r =>
      ({ s with f := some (E.thermo x s.w r s.h s.mask s.cell s.chi s.par), fHas := true },
        false)
    | _, _ => (s, true)

/-- One update of an iterator: new w fields and, for a flexible unit cell, new cell parameters
(`AmIteratorBasis::update`). -/
structure Trial (W C : Type) where
  w : W
  cell : Option C

/-- `update` and `evaluate` of an iterator (`AmIteratorTmpl.tpp:194-205`); `evaluate` calls
`System::compute`. -/
def trial (E : Physics) (flexible sym : Bool) (s : State) (t : Trial W C) : Call State :=
  (match t.cell with
   | none => s.setW t.w sym
   | some p => (s.setW t.w sym).setCell p).compute E flexible

/-- The loop of an iterator: any number of trial states. -/
def trials (E : Physics) (flexible sym : Bool) : List (Trial W C) → State → Call State
  | [], s => (s, false)
  | t :: ts, s => andThen (s.trial E flexible sym t) fun s1 => trials E flexible sym ts s1

/-- `iterate`, `SystemTmpl.tpp:859-900`, for an iterator that evaluates the initial state, then
the trial states `ts`, and returns `failed`. -/
def iterate (E : Physics) (flexible sym failed : Bool) (ts : List (Trial W C)) (s : State) :
    Call State :=
  if !s.wHas || (sym && !s.wSym) then (s, true)
  else andThen (s.clearCFields.updateEnv E) fun s1 =>
    andThen (s1.compute E flexible) fun s2 => andThen (trials E flexible sym ts s2) fun s3 =>
      if !s3.cHas then (s3, true)
      else if failed then (s3, false)
      else andThen (s3.thermoCompute E) fun s4 =>
        if flexible then (s4, false)
        else if !s4.mixHas then s4.computeStress E else (s4, false)

/-- The command `WRITE_STRESS`, `SystemTmpl.tpp:516-529`; see `writtenStress`. -/
def writeStress (E : Physics) (s : State) : Call State :=
  andThen (if !s.mixHas then s.computeStress E else (s, false)) fun s1 =>
    (s1, s1.hasEnv && !s1.envHas)

/-- The numbers in the file made by `WRITE_STRESS`: `mixture.writeStress` and, with an
environment, `environment.writeStress`; `none` if the command throws. -/
def writtenStress (E : Physics) (s : State) : Option (Option T × Option T) :=
  let r := s.writeStress E
  if r.2 then none else some (r.1.mixStress, if r.1.hasEnv then r.1.envStress else none)

/-- The free energies in the file made by `WRITE_THERMO` (`ScftThermoTmpl::write`,
`ScftThermoTmpl.tpp:261-320`). -/
def writtenThermo (E : Physics) (s : State) : Option F :=
  let r := s.thermoCompute E
  if r.2 then none else r.1.f

end St

/-- Calls of the public interface. -/
inductive Op (W H M C X P Q : Type) where
  /-- `w().setBasis`, `w().setRGrid`. -/
  | setW (w : W) (sym : Bool)
  /-- `w().readBasis`, `w().readRGrid`: the header sets the system's unit cell first. -/
  | readW (p : C) (w : W) (sym : Bool)
  | setH (h : H)
  | setMask (m : M)
  /-- `setUnitCell`. -/
  | setCell (p : C)
  | compute (needStress : Bool)
  | computeStress
  | iterate (flexible sym failed : Bool) (ts : List (St.Trial W C))
  | thermo
  | writeStress
  | clearCFields
  /-- `interaction().setChi` (`RampParameter`, `SweepParameter`): no notification. -/
  | setChi (x : X)
  /-- `mixtureModifier().setKuhn`: `MixturePrdc.tpp:276-291` clears the stress flag. -/
  | setKuhn (p : P)
  /-- other functions of `MixtureModifierPrdc.tpp:44-110`: no flag changes. -/
  | setOther (p : P)
  /-- `environment().setParameter`, `MixAndMatchEnvTmpl.tpp:148-163`. -/
  | setEnvPar (q : Q)
  /-- A w field function that throws after it changed the fields, without a signal (see
  `Verif.Field`, `C46_notify_violated`). -/
  | failW (w : W) (sym : Bool)

namespace St

/-- One call; an exception leaves the state reached at that point. -/
def step (E : Physics) (s : State) : Op W H M C X P Q → State
  | .setW w sym => s.setW w sym
  | .readW p w sym => (s.setCell p).setW w sym
  | .setH h => s.setH h
  | .setMask m => s.setMask m
  | .setCell p => s.setCell p
  | .compute b => (s.compute E b).1
  | .computeStress => (s.computeStress E).1
  | .iterate fl sym failed ts => (s.iterate E fl sym failed ts).1
  | .thermo => (s.thermoCompute E).1
  | .writeStress => (s.writeStress E).1
  | .clearCFields => s.clearCFields
  | .setChi x => { s with chi := x }
  | .setKuhn p => { s with par := p, mixHas := false }
  | .setOther p => { s with par := p }
  | .setEnvPar q => { s with envPar := q }.resetEnv
  | .failW w sym => { s with w := w, wHas := true, wSym := sym }

/-- A sequence of calls. -/
def run (E : Physics) (s : State) (ops : List (Op W H M C X P Q)) : State :=
  ops.foldl (fun s op => s.step E op) s

end St
end Verif.Sys
