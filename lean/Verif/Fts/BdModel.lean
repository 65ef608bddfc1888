import Verif.Fts.BalanceProps
import Verif.Fts.Compress

/-!
# Brownian dynamics steps, and simulation steps on the GPU

Sources: `/repo/src/rpc/fts/brownian/{LMBdStep,PredCorrBdStep}.tpp`, and
`/repo/src/rpg/fts/{simulator/Simulator,montecarlo/RealMove,montecarlo/ForceBiasMove,brownian/ExplicitBdStep,`
`brownian/LMBdStep,brownian/PredCorrBdStep,compressor/LrCompressor,perturbation/EinsteinCrystalPerturbation}.tpp`,
`/repo/src/rpg/fts/VecOpFts.cu`, `/repo/src/pscf/cuda/CudaRandom.cu`.

An array on the GPU is the function of its elements.  That the kernels of `VecOp` act element by element for every
schedule is C96, that the reductions give the exact sum is C93; here these operations are elementwise functions and
sums.  The loops over monomer types, in which each turn changes a different array, are maps.  The forces `force w`
stand for `computeWc`, `computeCc`, `computeDc` after the modified diffusion equation was solved, and `comp w` for
the fields after `compress` (`none` if it fails, in which case `restoreState` restores `w`, see C56 and C57).
-/

set_option autoImplicit false

namespace Verif.Fts

noncomputable section

variable {m n : Nat}

/-- An array of real numbers. -/
abbrev Fd (n : Nat) := Fin n → ℝ

/-! ## Brownian dynamics steps of the CPU code -/

/-- Amplitude of the noise of `LMBdStep`, `rpc/fts/brownian/LMBdStep.tpp:84-85`. -/
def lmAmp (n : Nat) (mobility vSystem : ℝ) : ℝ := √(1 / 2 * mobility * (n : ℝ) / vSystem)

/-- State of a simulation with `LMBdStep`: w fields, the two arrays of noise, and which of them is `etaOld`. -/
structure LM (m n : Nat) where
  w : Flds m n
  etaA : Comps m n
  etaB : Comps m n
  oldIsA : Bool

namespace LM

/-- `etaOld(j)`. -/
def old (s : LM m n) : Comps m n := if s.oldIsA then s.etaA else s.etaB

/-- `etaNew(j)`. -/
def new (s : LM m n) : Comps m n := if s.oldIsA then s.etaB else s.etaA

/-- Write the array that `etaNewPtr_` points to. -/
def putNew (s : LM m n) (x : Comps m n) : LM m n := if s.oldIsA then { s with etaB := x } else { s with etaA := x }

/-- `exchangeOldNew`, `rpc/fts/brownian/LMBdStep.tpp:100-106`. -/
def exchange (s : LM m n) : LM m n := { s with oldIsA := !s.oldIsA }

/-- `generateEtaNew`, `rpc/fts/brownian/LMBdStep.tpp:78-94`, from Gaussian random numbers `g`. -/
def generate (mobility vSystem : ℝ) (s : LM m n) (g : Comps m n) : LM m n :=
  s.putNew fun j k => lmAmp n mobility vSystem * g j k

/-- `setup`, `rpc/fts/brownian/LMBdStep.tpp:112-132`. -/
def setup (mobility vSystem : ℝ) (s : LM m n) (g : Comps m n) : LM m n :=
  (generate mobility vSystem { s with oldIsA := true } g).exchange

/-- `step`, `rpc/fts/brownian/LMBdStep.tpp:138-202`. -/
def step (e : Eig m) (mobility vSystem : ℝ) (force : Flds m n → Comps m n) (comp : Flds m n → Option (Flds m n))
    (s : LM m n) (g : Comps m n) : LM m n :=
  let s1 := generate mobility vSystem s g
  let d : Comps m n := fun j k => -1 * mobility * force s.w j k + s1.new j k + s1.old j k
  match comp (displace e s.w d) with
  | none => s1
  | some w => { s1 with w := w }.exchange

/-- A simulation: `setup` and any number of steps. -/
def run (e : Eig m) (mobility vSystem : ℝ) (force : Flds m n → Comps m n) (comp : Flds m n → Option (Flds m n))
    (s : LM m n) (g0 : Comps m n) (gs : List (Comps m n)) : LM m n :=
  gs.foldl (step e mobility vSystem force comp) (setup mobility vSystem s g0)

end LM

/-- Amplitude of the noise of `PredCorrBdStep` and `ExplicitBdStep`, `rpc/fts/brownian/PredCorrBdStep.tpp:118-120`. -/
def pcAmp (n : Nat) (mobility vSystem : ℝ) : ℝ := √(2 * mobility * (n : ℝ) / vSystem)

/-- Fields predicted by `PredCorrBdStep::step`, `rpc/fts/brownian/PredCorrBdStep.tpp:108-150`. -/
def pcPredict (e : Eig m) (mobility vSystem : ℝ) (force : Flds m n → Comps m n) (w : Flds m n) (g : Comps m n) :
    Flds m n :=
  displace e w fun j k => -1 * mobility * force w j k + pcAmp n mobility vSystem * g j k

/-- Fields of the corrector, `rpc/fts/brownian/PredCorrBdStep.tpp:171-202`; `wp` are the predicted fields after
compression. -/
def pcCorrect (e : Eig m) (mobility vSystem : ℝ) (force : Flds m n → Comps m n) (w wp : Flds m n) (g : Comps m n) :
    Flds m n :=
  let dwp : Fd n := fun k => computeWcF e wp (Fin.last m) k - computeWcF e w (Fin.last m) k
  displace e (fun i k => w i k + dwp k) fun j k =>
    1 / 2 * (-1 * mobility) * (force w j k + force wp j k) + pcAmp n mobility vSystem * g j k

/-- `PredCorrBdStep::step`, `rpc/fts/brownian/PredCorrBdStep.tpp:98-227`: the fields, and whether it converged. -/
def pcStep (e : Eig m) (mobility vSystem : ℝ) (force : Flds m n → Comps m n) (comp : Flds m n → Option (Flds m n))
    (w : Flds m n) (g : Comps m n) : Flds m n × Bool :=
  match comp (pcPredict e mobility vSystem force w g) with
  | none => (w, false)
  | some wp =>
    match comp (pcCorrect e mobility vSystem force w wp g) with
    | none => (w, false)
    | some wf => (wf, true)

/-! ## GPU code -/

namespace Gpu

/-- `a = s`, `prdc/cuda/VecOp.cu:63-70`. -/
def eqS (s : ℝ) : Fd n := fun _ => s
/-- `a = b - c`, `VecOp.cu:247-256`. -/
def subVV (b c : Fd n) : Fd n := fun k => b k - c k
/-- `a = b - c` with a number `c`, `VecOp.cu:322-331`. -/
def subVS (b : Fd n) (c : ℝ) : Fd n := fun k => b k - c
/-- `a = b + c`, `VecOp.cu:97-106`. -/
def addVV (b c : Fd n) : Fd n := fun k => b k + c k
/-- `a += b`, `VecOp.cu:671-679`. -/
def addEqV (a b : Fd n) : Fd n := fun k => a k + b k
/-- `a *= b` with a number `b`, `VecOp.cu:921-929`. -/
def mulEqS (a : Fd n) (b : ℝ) : Fd n := fun k => a k * b
/-- `a = b * c` with a number `c`, `VecOp.cu:472-481`. -/
def mulVS (b : Fd n) (c : ℝ) : Fd n := fun k => b k * c
/-- `a += b * c` with a number `c`, `VecOpMisc.cu:76-84`. -/
def addEqVc (a b : Fd n) (c : ℝ) : Fd n := fun k => a k + b k * c
/-- `a = b * c + d * e`, `VecOpMisc.cu:35-43`. -/
def addVcVc (b : Fd n) (c : ℝ) (d : Fd n) (e : ℝ) : Fd n := fun k => b k * c + d k * e
/-- `a = b * c + d * e + f * g`, `VecOpMisc.cu:57-66`. -/
def addVcVcVc (b : Fd n) (c : ℝ) (d : Fd n) (e : ℝ) (f : Fd n) (g : ℝ) : Fd n :=
  fun k => b k * c + d k * e + f k * g
/-- `computeDField`, `VecOpFts.cu:43-54, 112-128`. -/
def computeDField (wc cc : Fd n) (a b s : ℝ) : Fd n := fun k => a * (b * (wc k - s) + cc k)
/-- `computeForceBias`, `VecOpFts.cu:57-68, 133-151`. -/
def computeForceBias (di df dwc : Fd n) (mobility : ℝ) : Fd n :=
  fun k => 1 / 2 * (di k + df k) * (dwc k + mobility * (1 / 2 * (di k - df k)))
/-- `Reduce::sum` (C93). -/
def sum (a : Fd n) : ℝ := accum n a 0
/-- `Reduce::innerProduct` (C93). -/
def innerProduct (a b : Fd n) : ℝ := accum n (fun k => a k * b k) 0

/-- `CudaRandom::normal` for double precision, `CudaRandom.cu:104-120`: `g` are the standard normal numbers behind
those that `curandGenerateNormalDouble` writes.  An odd number of elements is refused. -/
def normal (g : Fd n) (stddev mean : ℝ) : Res (Fd n) :=
  if n = 0 then .throw
  else if n % 2 = 1 then .throw
  else .ok fun k => mean + stddev * g k

/-- Loop over eigenvectors `j` around `VecOp::addEqVc(w[i], dwc, chiEvecs(j,i))`: in each turn the displacement is
computed, then added to the field of every monomer type. -/
def evLoop (e : Eig m) (disp : Fin m → Res (Fd n)) : List (Fin m) → Flds m n → Res (Flds m n)
  | [], w => .ok w
  | j :: js, w => disp j >>= fun d => evLoop e disp js fun i => addEqVc (w i) d (e.vec j.castSucc i)

/-- `RealMove::attemptMove`, `rpg/fts/montecarlo/RealMove.tpp:84-117`. -/
def realMove (e : Eig m) (sigma : ℝ) (w : Flds m n) (g : Comps m n) : Res (Flds m n) :=
  evLoop e (fun j => normal (g j) sigma 0) (List.finRange m) w

/-- Displacements of `ForceBiasMove::move`, `rpg/fts/montecarlo/ForceBiasMove.tpp:140-169`. -/
def fbDisp (mobility vSystem : ℝ) (dc g : Comps m n) (j : Fin m) : Res (Fd n) :=
  let vNode := vSystem / (n : ℝ)
  normal (g j) 1 0 >>= fun x => .ok (addVcVc (dc j) (-1 * mobility) x √(2 * mobility / vNode))

/-- Fields set by `ForceBiasMove::move`, `rpg/fts/montecarlo/ForceBiasMove.tpp:129-175`. -/
def forceBiasMove (e : Eig m) (mobility vSystem : ℝ) (w : Flds m n) (dc g : Comps m n) : Res (Flds m n) :=
  evLoop e (fbDisp mobility vSystem dc g) (List.finRange m) w

/-- Bias of the move, `rpg/fts/montecarlo/ForceBiasMove.tpp:204-214`. -/
def forceBias (mobility vSystem : ℝ) (di df dwc : Comps m n) : ℝ :=
  accum m (fun j => sum (computeForceBias (di j) (df j) (dwc j) mobility)) 0 * (vSystem / (n : ℝ))

/-- Fields set by `ExplicitBdStep::step`, `rpg/fts/brownian/ExplicitBdStep.tpp:81-129`. -/
def explicitBd (e : Eig m) (mobility vSystem : ℝ) (w : Flds m n) (dc g : Comps m n) : Res (Flds m n) :=
  evLoop e (fun j => normal (g j) 1 0 >>= fun x =>
    .ok (addVcVc (dc j) (-1 * mobility) x √(2 * mobility * (n : ℝ) / vSystem))) (List.finRange m) w

/-- `generateEtaNew`, `rpg/fts/brownian/LMBdStep.tpp:82-104`. -/
def lmEta (mobility vSystem : ℝ) (g : Comps m n) (j : Fin m) : Res (Fd n) :=
  normal (g j) 1 0 >>= fun x => .ok (mulVS x √(1 / 2 * mobility * (n : ℝ) / vSystem))

/-- Loop that fills one array for each eigenvector. -/
def fillLoop (f : Fin m → Res (Fd n)) : List (Fin m) → Comps m n → Res (Comps m n)
  | [], x => .ok x
  | j :: js, x => f j >>= fun d => fillLoop f js (Function.update x j d)

/-- The loop over all eigenvectors. -/
def fill (f : Fin m → Res (Fd n)) : Res (Comps m n) := fillLoop f (List.finRange m) fun _ _ => 0

/-- `LMBdStep::step`, `rpg/fts/brownian/LMBdStep.tpp:145-207`. -/
def lmStep (e : Eig m) (mobility vSystem : ℝ) (force : Flds m n → Comps m n) (comp : Flds m n → Option (Flds m n))
    (s : LM m n) (g : Comps m n) : Res (LM m n) :=
  fill (lmEta mobility vSystem g) >>= fun x =>
    let s1 := s.putNew x
    let a := -1 * mobility
    evLoop e (fun j => .ok (addVcVcVc (s1.new j) 1 (s1.old j) 1 (force s.w j) a)) (List.finRange m) s.w >>= fun w =>
      match comp w with
      | none => .ok s1
      | some w => .ok { s1 with w := w }.exchange

/-- `LMBdStep::setup`, `rpg/fts/brownian/LMBdStep.tpp:119-139`. -/
def lmSetup (mobility vSystem : ℝ) (s : LM m n) (g : Comps m n) : Res (LM m n) :=
  fill (lmEta mobility vSystem g) >>= fun x => .ok ({ s with oldIsA := true }.putNew x).exchange

/-- A GPU simulation with `LMBdStep`. -/
def lmRun (e : Eig m) (mobility vSystem : ℝ) (force : Flds m n → Comps m n) (comp : Flds m n → Option (Flds m n))
    (s : LM m n) (g0 : Comps m n) : List (Comps m n) → Res (LM m n)
  | gs => lmSetup mobility vSystem s g0 >>= fun s0 =>
    gs.foldlM (fun s g => lmStep e mobility vSystem force comp s g) s0

/-- Loop `a = 0; for j: a += b_j * c_j` over arrays. -/
def linComb {M : Nat} (b : Fin M → Fd n) (c : Fin M → ℝ) : Fd n :=
  (List.finRange M).foldl (fun a j => addEqVc a (b j) (c j)) (eqS 0)

/-- `Simulator::computeWc`, `rpg/fts/simulator/Simulator.tpp:470-495`. -/
def computeWc (e : Eig m) (w : Flds m n) : Flds m n := fun i => linComb w fun j => e.vec i j / nM m

/-- `PredCorrBdStep::step`, `rpg/fts/brownian/PredCorrBdStep.tpp:101-223`. -/
def pcStep (e : Eig m) (mobility vSystem : ℝ) (force : Flds m n → Comps m n) (comp : Flds m n → Option (Flds m n))
    (w : Flds m n) (g : Comps m n) : Res (Flds m n × Bool) :=
  let a := -1 * mobility
  let b := √(2 * mobility * (n : ℝ) / vSystem)
  fill (fun j => normal (g j) 1 0 >>= fun x => .ok (mulEqS x b)) >>= fun eta =>
  evLoop e (fun j => .ok (addVcVc (force w j) a (eta j) 1)) (List.finRange m) w >>= fun wp =>
    match comp wp with
    | none => .ok (w, false)
    | some wp =>
      let dwp := subVV (computeWc e wp (Fin.last m)) (computeWc e w (Fin.last m))
      let ha := 1 / 2 * a
      evLoop e (fun j => .ok (addVcVcVc (force w j) ha (force wp j) ha (eta j) 1)) (List.finRange m)
          (fun i => addEqV (w i) dwp) >>= fun wf =>
        match comp wf with
        | none => .ok (w, false)
        | some wf => .ok (wf, true)

/-- `Simulator::computeCc`, `rpg/fts/simulator/Simulator.tpp:502-530`. -/
def computeCc (e : Eig m) (c : Flds m n) : Flds m n := fun i => linComb c fun j => e.vec i j

/-- `Simulator::computeDc` without perturbation, `rpg/fts/simulator/Simulator.tpp:536-560`. -/
def computeDc (vMonomer : ℝ) (e : Eig m) (wc cc : Flds m n) : Comps m n := fun i =>
  computeDField (wc i.castSucc) (cc i.castSucc) (1 / vMonomer) (-1 * nM m / e.val i.castSucc) (e.sc i.castSucc)

/-- `Simulator::computeHamiltonian` without perturbation, `rpg/fts/simulator/Simulator.tpp:196-289`. -/
def hamiltonian (vSystem vMonomer : ℝ) (species : List Spec) (e : Eig m) (wc : Flds m n) : ℝ :=
  let lnQ := lnQSpecies species 0
  let lnQ := lnQ + sum (wc (Fin.last m)) / (n : ℝ)
  let HW := accum m (fun j =>
    let wcs := subVS (wc j.castSucc) (e.sc j.castSucc);
    -(1 / 2) * nM m / e.val j.castSucc * innerProduct wcs wcs) 0
  let HW := HW / (n : ℝ)
  let HW := HW + 1 / 2 * e.sc (Fin.last m)
  let nMonomerSystem := vSystem / vMonomer;
  (-1) * nMonomerSystem * lnQ + nMonomerSystem * HW

/-- Einstein crystal energy, `rpg/fts/perturbation/EinsteinCrystalPerturbation.tpp:110-137`. -/
def ecHamiltonian (vSystem vMonomer : ℝ) (eps : Fin m → ℝ) (wc wc0 : Flds m n) : ℝ :=
  accum m (fun j =>
    let wcs := subVV (wc j.castSucc) (wc0 j.castSucc)
    nM m / (2 * eps j) * innerProduct wcs wcs) 0 / (n : ℝ) * (vSystem / vMonomer)

/-- `EinsteinCrystalPerturbation::incrementDc`, `rpg/fts/perturbation/EinsteinCrystalPerturbation.tpp:150-174`. -/
def incrementDc (vMonomer lam : ℝ) (eps : Fin m → ℝ) (wc wc0 : Flds m n) (dc : Comps m n) : Comps m n := fun i =>
  let dcEC := mulEqS (subVV (wc i.castSucc) (wc0 i.castSucc)) (nM m / (eps i * vMonomer))
  addVcVc (dc i) lam dcEC (1 - lam)

/-- `getResidual` of the compressors, `rpg/fts/compressor/LrCompressor.tpp:189-200`, `AmCompressor.tpp:153-164`,
`LrAmCompressor.tpp:199-210`. -/
def residual (c : Flds m n) : Fd n :=
  (List.finRange m).foldl (fun a j => addEqV a (c j.succ)) (subVS (c 0) 1)

/-- What `setup` of a move or step does with the arrays that belong to it, at the start of each `simulate`. -/
inductive Stepper where
  | real
  | forceBias
  | explicitBd
  | predCorr
  | lm

/-- `setup`: `alloc` tells whether the arrays for random numbers and bias are allocated.  `RealMove.tpp:63-78`
allocates if this was not done before, `ForceBiasMove.tpp:76-96` and `ExplicitBdStep.tpp:66-78` allocate always
(which throws if done before, `DeviceArray.h:264-280`), the other two allocate in `readParameters`. -/
def stepperSetup (s : Stepper) (alloc : Bool) : Res Bool :=
  match s with
  | .real => .ok true
  | .forceBias => if alloc then .throw else .ok true
  | .explicitBd => if alloc then .throw else .ok true
  | .predCorr => .ok true
  | .lm => .ok true

/-- `setup` of the first `k` simulations of a program run. -/
def setups (s : Stepper) : Nat → Res Bool
  | 0 => .ok false
  | k + 1 => setups s k >>= stepperSetup s

end Gpu

end

end Verif.Fts
