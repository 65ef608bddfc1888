import Verif.Basic
import Mathlib.Algebra.Module.Basic
import Mathlib.Algebra.Field.Basic
import Mathlib.Algebra.BigOperators.Group.List.Basic

/-!
# Model of the analyzers of field theoretic simulations and of repeated simulations

Sources: `/repo/src/rpc/fts/analyzer/{AverageAnalyzer,AverageListAnalyzer,MaxOrderParameter,
TrajectoryWriter,AnalyzerManager}.tpp` and their copies in `/repo/src/rpg`, the functions `setup` and
`readParameters` of the moves, Brownian dynamics steps, compressors and perturbations, and the sequence
of calls in `rpc/fts/montecarlo/McSimulator.tpp:108-243`.

The value that an analyzer computes from the system at a step is an input of the model. An analyzer of
a list of values samples a vector. `Util::Average` is modelled by its contract (submodule `util` is
empty): it counts and adds all values, and, if the number of samples per block is positive, the values
of the current block. Error estimates are not modelled. Opening and writing files succeeds.
-/

set_option autoImplicit false

namespace Verif.Ana

variable {K V : Type} [Field K] [AddCommGroup V] [Module K V]

/-! ## `Util::Average` -/

/-- `Util::Average`: all samples, and samples of the current block. -/
structure Accum (V : Type) where
  n : Nat
  sum : V
  iBlock : Nat
  blockSum : V

/-- `clear()`. -/
def Accum.clear : Accum V := ⟨0, 0, 0, 0⟩

/-- `sample(value)`, for `nb` samples per block: a complete block is followed by a new one. -/
def Accum.sample (nb : Nat) (a : Accum V) (v : V) : Accum V :=
  if nb = 0 then { a with n := a.n + 1, sum := a.sum + v }
  else if a.iBlock = nb then ⟨a.n + 1, a.sum + v, 1, v⟩
  else ⟨a.n + 1, a.sum + v, a.iBlock + 1, a.blockSum + v⟩

/-- `isBlockComplete()`. -/
def Accum.isBlockComplete (nb : Nat) (a : Accum V) : Bool := a.iBlock == nb

/-- `average()`; without samples it is not a number, here zero. -/
def Accum.average (K : Type) {V : Type} [Field K] [AddCommGroup V] [Module K V] (a : Accum V) : V :=
  (a.n : K)⁻¹ • a.sum

/-- `blockAverage()`. -/
def Accum.blockAverage (K : Type) {V : Type} [Field K] [AddCommGroup V] [Module K V] (a : Accum V) : V :=
  (a.iBlock : K)⁻¹ • a.blockSum

/-! ## Analyzers -/

/-- An `AverageAnalyzer` or `AverageListAnalyzer`: `nSamplePerOutput_`, `interval_`, whether
`outputValue` checks that the file is open, `outputFile_.is_open()`, the accumulator, and the lines of
the `.dat` and `.ave` files. -/
structure Avg (V : Type) where
  nb : Nat
  interval : Int
  strict : Bool
  isOpen : Bool
  acc : Accum V
  dat : List (Int × V)
  ave : Option V

/-- A fresh object after `readParameters`, `AverageAnalyzer.tpp:48-66`, `AverageListAnalyzer.tpp:51-63`:
the `.dat` file is opened here. -/
def Avg.read (nb : Nat) (interval : Int) (strict : Bool) : Avg V :=
  ⟨nb, interval, strict, decide (nb > 0), Accum.clear, [], none⟩

/-- `setup`, `AverageAnalyzer.tpp:71-73`, `AverageListAnalyzer.tpp:76-80`. -/
def Avg.setup (a : Avg V) : Avg V := { a with acc := Accum.clear }

/-- `outputValue`, `AverageAnalyzer.tpp:101-107`, and without check `MaxOrderParameter.tpp:151-161`
(`AverageListAnalyzer.tpp:173-186` has the check): a value written to a closed stream is lost. -/
def Avg.outputValue (a : Avg V) (step : Int) (v : V) : Res (Avg V) :=
  if a.isOpen then .ok { a with dat := a.dat ++ [(step, v)] }
  else if a.strict then .throw else .ok a

/-- `sample`, `AverageAnalyzer.tpp:78-96`, `AverageListAnalyzer.tpp:85-92`, `164-190`. -/
def Avg.sample (K : Type) {V : Type} [Field K] [AddCommGroup V] [Module K V] (a : Avg V) (iStep : Int)
    (v : V) : Res (Avg V) :=
  if iStep % a.interval ≠ 0 then .ok a
  else
    let a := { a with acc := a.acc.sample a.nb v }
    if 0 < a.nb then
      if a.acc.isBlockComplete a.nb then
        a.outputValue (iStep - ((a.nb : Int) - 1) * a.interval) (a.acc.blockAverage K)
      else .ok a
    else .ok a

/-- `output`, `AverageAnalyzer.tpp:113-153`, `AverageListAnalyzer.tpp:97-118`: close the data file,
write the `.ave` file. -/
def Avg.output (K : Type) {V : Type} [Field K] [AddCommGroup V] [Module K V] (a : Avg V) : Avg V :=
  { a with isOpen := false, ave := some (a.acc.average K) }

/-- A `TrajectoryWriter` or `ConcentrationWriter`: `interval_`, the frames in the file. -/
structure Writer (V : Type) where
  interval : Int
  isOpen : Bool
  frames : List (Int × V)

/-- `setup`, `TrajectoryWriter.tpp:53-61`: open the file, which clears it. -/
def Writer.setup (w : Writer V) : Writer V := { w with isOpen := true, frames := [] }

/-- `sample`, `TrajectoryWriter.tpp:95-101`. -/
def Writer.sample (w : Writer V) (iStep : Int) (v : V) : Writer V :=
  if iStep % w.interval = 0 ∧ w.isOpen then { w with frames := w.frames ++ [(iStep, v)] } else w

/-- `output`, `TrajectoryWriter.tpp:106-108`. -/
def Writer.output (w : Writer V) : Writer V := { w with isOpen := false }

/-! ## Components that allocate memory -/

/-- Classes of the two programs with arrays of their own. -/
inductive Cls where
  | realMove | forceBiasMove | explicitBdStep | lmBdStep | predCorrBdStep
  | amCompressor | lrCompressor | lrAmCompressor
  | einsteinCrystal | binaryStructureFactor

/-- Where an array is allocated: when parameters are read, in `setup` unless it is allocated already, or
in `setup` in any case. -/
inductive Alloc where
  | read | guarded | setup
  deriving DecidableEq

/-- Place of the allocations of each class (`gpu`: the class of `/repo/src/rpg`).
`RealMove.tpp:63-70`; `rpc/.../ForceBiasMove.tpp:60-68`, `rpg/.../ForceBiasMove.tpp:94-95`;
`rpc/.../ExplicitBdStep.tpp:55-59`, `rpg/.../ExplicitBdStep.tpp:77`; `rpc/.../LMBdStep.tpp:61-71`,
`rpg/.../LMBdStep.tpp:64-75`; `rpc/.../PredCorrBdStep.tpp:59-72`, `rpg/.../PredCorrBdStep.tpp:62-75`;
`AmCompressor.tpp:71-78`; `LrCompressor.tpp:76-84`; `LrAmCompressor.tpp:84-95`;
`rpc/.../EinsteinCrystalPerturbation.tpp:72-77` (rpg `:73-77`);
`rpc/.../BinaryStructureFactorGrid.tpp:106-107` (rpg `:98-99`). -/
def Cls.alloc (gpu : Bool) : Cls → Alloc
  | .realMove => .guarded
  | .forceBiasMove => if gpu then .setup else .read
  | .explicitBdStep => if gpu then .setup else .read
  | .lmBdStep => .read
  | .predCorrBdStep => .read
  | .amCompressor => .guarded
  | .lrCompressor => .guarded
  | .lrAmCompressor => .guarded
  | .einsteinCrystal => .setup
  | .binaryStructureFactor => .setup

/-- `allocate` of `DArray` (contract) and `DeviceArray` (`pscf/cuda/DeviceArray.h:264-279`): an array
that is allocated already is refused. -/
def allocate (isAllocated : Bool) : Res Bool := if isAllocated then .throw else .ok true

/-! ## Simulations -/

/-- A component of a simulator: for `part`, whether its arrays are allocated. -/
inductive Comp (V : Type) where
  | part (gpu : Bool) (c : Cls) (isAllocated : Bool)
  | avg (a : Avg V)
  | writer (w : Writer V)

/-- Components as described in a parameter file. -/
inductive Spec where
  | part (gpu : Bool) (c : Cls)
  | avg (nb : Nat) (interval : Int) (strict : Bool)
  | writer (interval : Int)

/-- Reading the parameter file. -/
def Spec.read : Spec → Comp V
  | .part gpu c => .part gpu c (decide (c.alloc gpu = .read))
  | .avg nb interval strict => .avg (Avg.read nb interval strict)
  | .writer interval => .writer ⟨interval, false, []⟩

/-- `setup` of a component. -/
def Comp.setup : Comp V → Res (Comp V)
  | .part gpu c b => match c.alloc gpu with
    | .read => .ok (.part gpu c b)
    | .guarded => if b then .ok (.part gpu c b) else (allocate b).bind fun b => .ok (.part gpu c b)
    | .setup => (allocate b).bind fun b => .ok (.part gpu c b)
  | .avg a => .ok (.avg a.setup)
  | .writer w => .ok (.writer w.setup)

/-- `sample` of a component, for the value of this component at this step. -/
def Comp.sample (K : Type) {V : Type} [Field K] [AddCommGroup V] [Module K V] (iStep : Int) (v : V) :
    Comp V → Res (Comp V)
  | .part gpu c b => .ok (.part gpu c b)
  | .avg a => (a.sample K iStep v).bind fun a => .ok (.avg a)
  | .writer w => .ok (.writer (w.sample iStep v))

/-- `output` of a component. -/
def Comp.output (K : Type) {V : Type} [Field K] [AddCommGroup V] [Module K V] : Comp V → Comp V
  | .part gpu c b => .part gpu c b
  | .avg a => .avg (a.output K)
  | .writer w => .writer w.output

/-- Loop over components, `AnalyzerManager.tpp:54-83`; component number `i` gets `f i`. -/
def loop {α : Type} (f : Nat → α → Res α) : Nat → List α → Res (List α)
  | _, [] => .ok []
  | i, c :: cs => (f i c).bind fun c => (loop f (i + 1) cs).bind fun cs => .ok (c :: cs)

/-- Sampled steps: the number of the step and the value for each component. -/
abbrev Run (V : Type) := List (Int × (Nat → V))

/-- Samples of one simulation, in order. -/
def samples (K : Type) {V : Type} [Field K] [AddCommGroup V] [Module K V] :
    Run V → List (Comp V) → Res (List (Comp V))
  | [], cs => .ok cs
  | (i, v) :: t, cs => (loop (fun j => Comp.sample K i (v j)) 0 cs).bind (samples K t)

/-- A command `SIMULATE` or `ANALYZE`: `setup`, samples, `output`. -/
def command (K : Type) {V : Type} [Field K] [AddCommGroup V] [Module K V] (r : Run V)
    (cs : List (Comp V)) : Res (List (Comp V)) :=
  (loop (fun _ => Comp.setup) 0 cs).bind fun cs =>
    (samples K r cs).bind fun cs => .ok (cs.map (Comp.output K))

/-- Several commands in one session. -/
def session (K : Type) {V : Type} [Field K] [AddCommGroup V] [Module K V] :
    List (Run V) → List (Comp V) → Res (List (Comp V))
  | [], cs => .ok cs
  | r :: rs, cs => (command K r cs).bind (session K rs)

/-- What a component leaves behind: lines of the `.dat` or trajectory file and of the `.ave` file. -/
def Comp.files : Comp V → List (Int × V) × Option V
  | .part _ _ _ => ([], none)
  | .avg a => (a.dat, a.ave)
  | .writer w => (w.frames, none)

end Verif.Ana
