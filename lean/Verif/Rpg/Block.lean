import Verif.Cuda.VecOp
import Verif.Cuda.Reduce
import Verif.Solver.Stress

/-!
# Model of the block solver of the GPU programs

Sources: `/repo/src/rpg/solvers/Block.tpp`, `/repo/src/rpg/solvers/Propagator.tpp`,
`/repo/src/prdc/cuda/FFT.tpp`, `/repo/src/prdc/cuda/FFTBatched.tpp`.

Everything is expressed by accesses to device memory (`Nat → ℝ`): each kernel launch runs under a
schedule that interleaves the accesses of its threads. Launch number `k` uses `sch k`. Launches do
not overlap (all use the default stream). cuFFT is not modelled: its functions are replaced by the
sums of the cuFFT manual; the contents of the input of a complex to real transform are lost.
Simplifications: real numbers stand for `cudaReal`; checks that only compare flags or capacities
fixed by `Block::allocate` (`isAllocated_`, `hasExpKsq_`, `fft().isSetup()`, `expW_.capacity()`, ...)
are left out; a unit cell with one parameter is considered in the stress.
-/

set_option autoImplicit false

namespace Verif.Rpg

open Verif.Cuda Verif.Solver

/-- Arrays that belong to a block (`Block.h:390-470`, `Propagator.h`): exponentials, the two halves
of `qrPair_` and `qkPair_` (`qk` also stands for `qk_` of the bead model), `cField()`, slice `j` of
the propagator with direction `d` (`q d j`), its batched transform (`qkAll d j`), the work arrays
`q0k_`, `q1k_` (`qkOne d`) and `rTmp`. `w`, `kSq` and `dKSq` are a chemical potential field and the
arrays of the wave list; `tmp` stands for registers of the threads. -/
inductive Kind where
  | expW | expW2 | expWInv | expKsq | expKsq2
  | qr | qr2 | qk | qk2 | c | tmp
  | q (d : Bool) (j : Nat)
  | qkAll (d : Bool) (j : Nat)
  | qkOne (d : Bool)
  | rTmp | w | kSq | dKSq
deriving DecidableEq

/-- Block number (for `w`, monomer type) and array. -/
abbrev Name := Nat × Kind

/-- Reals per element. -/
def Kind.wd : Kind → Nat
  | .qk | .qk2 | .qkAll _ _ | .qkOne _ => 2
  | _ => 1

/-- Device, schedules (`sch` for the kernels of `VecOp` and `Block`, `red` for those of `Reduce`), and
what cuFFT leaves in the input of a complex to real transform. -/
structure Env where
  dev : Device
  sch : Nat → List Nat
  red : Nat → Nat → Nat → Nat → List Nat
  junk : Nat → Nat → ℝ

/-- Static variables of `ThreadArray`, device memory, number of operations done. -/
structure St where
  ta : TA
  mem : Nat → ℝ
  clock : Nat

section Ops

variable (E : Env)

/-- A wrapper of a kernel as an operation on the state. -/
def lift (f : TA → List Nat → (Nat → ℝ) → Res (TA × (Nat → ℝ))) (s : St) : Res St :=
  f s.ta (E.sch s.clock) s.mem >>= fun p => .ok ⟨p.1, p.2, s.clock + 1⟩

/-- Body of `_eqS`, `VecOp.cu:68`. -/
def setBody (v : ℝ) (a i : Nat) : List (Instr ℝ) := [⟨a + i, [], fun _ => v⟩]

/-- `VecOp::eqS`, `VecOp.cu:1073-1084`, `VecOp.h:140`. -/
def eqS (A : DArr) (v : ℝ) : St → Res St :=
  lift E fun ta sch mem => vecLaunch E.dev ta A.cap (setBody v A.base) sch mem

/-- `VecOp::eqV`, `VecOp.h`, all elements. -/
def eqV (A B : DArr) : St → Res St :=
  lift E fun ta sch mem => unR id E.dev ta A B 0 0 A.cap sch mem

/-- `VecOp::expVc`, `VecOpMisc.cu:139, 393-406`. -/
noncomputable def expVc (A B : DArr) (c : ℝ) : St → Res St :=
  lift E fun ta sch mem => unR (fun x => Real.exp (x * c)) E.dev ta A B 0 0 A.cap sch mem

/-- `VecOp::divSV`, `VecOp.cu:621-632, 1619-1634`. -/
noncomputable def divSV (A : DArr) (b : ℝ) (C : DArr) : St → Res St :=
  lift E fun ta sch mem => unR (fun x => b / x) E.dev ta A C 0 0 A.cap sch mem

/-- `VecOp::mulEqS` for real arrays, `VecOp.cu:926, 1918-1930`. -/
def mulEqS (A : DArr) (b : ℝ) : St → Res St :=
  lift E fun ta sch mem => unR (fun x => x * b) E.dev ta A A 0 0 A.cap sch mem

/-- `VecOp::mulEqV` for real arrays, `VecOp.cu:873, 1867-1881`. -/
def mulEqV (A B : DArr) : St → Res St :=
  lift E fun ta sch mem => binR (· * ·) E.dev ta A A B 0 0 0 A.cap sch mem

/-- Body of `_mulEqV` for a complex and a real array, `VecOp.cu:909-910`. -/
def cmulBody (a b i : Nat) : List (Instr ℝ) :=
  [⟨a + 2 * i, [a + 2 * i, b + i], bin (· * ·)⟩,
   ⟨a + 2 * i + 1, [a + 2 * i + 1, b + i], bin (· * ·)⟩]

/-- `VecOp::mulEqV` for a complex and a real array, `VecOp.cu:1901-1915`. -/
def cmulEqV (A B : DArr) : St → Res St :=
  lift E fun ta sch mem =>
    if ¬ B.cap ≥ A.cap then .throw else vecLaunch E.dev ta A.cap (cmulBody A.base B.base) sch mem

/-- Body of `_mulEqS` for a complex array and a real factor, `VecOp.cu:962-963`. -/
def cscaleBody (v : ℝ) (a i : Nat) : List (Instr ℝ) :=
  [⟨a + 2 * i, [a + 2 * i], un (· * v)⟩, ⟨a + 2 * i + 1, [a + 2 * i + 1], un (· * v)⟩]

/-- `VecOp::mulEqS` for a complex array and a real factor, `VecOp.cu:1949-1961`. -/
def cmulEqS (A : DArr) (v : ℝ) : St → Res St :=
  lift E fun ta sch mem => vecLaunch E.dev ta A.cap (cscaleBody v A.base) sch mem

/-- Values used by `richardsonEx`, `addEqMulVVc`, `addEqMulVVV` and `realMulVConjVV`. -/
noncomputable def richVal : List ℝ → ℝ
  | [q2, e, q] => (4 * (q2 * e) - q) / 3
  | _ => 0

def fmaVal (d : ℝ) : List ℝ → ℝ
  | [a, b, c] => a + b * c * d
  | _ => 0

def fmaVVal : List ℝ → ℝ
  | [a, b, c, d] => a + b * c * d
  | _ => 0

def conjVal : List ℝ → ℝ
  | [bx, cx, by', cy, d] => (bx * cx + by' * cy) * d
  | _ => 0

/-- `_richardsonEx`, `Block.tpp:67-70`; `q2` is a register. -/
noncomputable def richBody (a b c e i : Nat) : List (Instr ℝ) :=
  [⟨a + i, [c + i, e + i, b + i], richVal⟩]

/-- `richardsonEx`, `Block.tpp:144-161`. -/
noncomputable def richardsonEx (A B C D : DArr) : St → Res St :=
  lift E fun ta sch mem =>
    if ¬ B.cap = A.cap then .throw
    else if ¬ C.cap = A.cap then .throw
    else if ¬ D.cap = A.cap then .throw
    else vecLaunch E.dev ta A.cap (richBody A.base B.base C.base D.base) sch mem

/-- `_addEqMulVVc`, `Block.tpp:84-86`. -/
def fmaBody (d : ℝ) (a b c i : Nat) : List (Instr ℝ) := [⟨a + i, [a + i, b + i, c + i], fmaVal d⟩]

/-- `addEqMulVVc`, `Block.tpp:171-185`. -/
def addEqMulVVc (A B C : DArr) (d : ℝ) : St → Res St :=
  lift E fun ta sch mem =>
    if ¬ B.cap ≥ A.cap then .throw
    else if ¬ C.cap ≥ A.cap then .throw
    else vecLaunch E.dev ta A.cap (fmaBody d A.base B.base C.base) sch mem

/-- `_addEqMulVVV`, `Block.tpp:100-102`. -/
def fmaVBody (a b c d i : Nat) : List (Instr ℝ) :=
  [⟨a + i, [a + i, b + i, c + i, d + i], fmaVVal⟩]

/-- `addEqMulVVV`, `Block.tpp:190-207`. -/
def addEqMulVVV (A B C D : DArr) : St → Res St :=
  lift E fun ta sch mem =>
    if ¬ B.cap ≥ A.cap then .throw
    else if ¬ C.cap ≥ A.cap then .throw
    else if ¬ D.cap ≥ A.cap then .throw
    else vecLaunch E.dev ta A.cap (fmaVBody A.base B.base C.base D.base) sch mem

/-- `_realMulVConjVV`, `Block.tpp:43-53`; `bt` and `ct` are registers. -/
def conjBody (a b c d i : Nat) : List (Instr ℝ) :=
  [⟨a + i, [b + 2 * i, c + 2 * i, b + 2 * i + 1, c + 2 * i + 1, d + i], conjVal⟩]

/-- `realMulVConjVV`, `Block.tpp:117-134`. -/
def realMulVConjVV (A B C D : DArr) : St → Res St :=
  lift E fun ta sch mem =>
    if ¬ B.cap ≥ A.cap then .throw
    else if ¬ C.cap ≥ A.cap then .throw
    else if ¬ D.cap ≥ A.cap then .throw
    else vecLaunch E.dev ta A.cap (conjBody A.base B.base C.base D.base) sch mem

end Ops

/-! ## Transforms -/

section Fft

variable {m : Nat} {N : Fin (m + 1) → Nat} [∀ d, NeZero (N d)] {n kS : Nat} (en : Fin n ≃ Grid N)
  (ek : Fin kS ≃ Half N)

/-- Unscaled sum for stored wave number `j`. -/
noncomputable def dftSum (q : Fld n ℝ) (j : Nat) : ℂ :=
  if h : j < kS then ∑ i, (q i : ℂ) * (starRingEnd ℂ) (wave (ek ⟨j, h⟩).1 (en i)) else 0

/-- `cufftExecD2Z` with a plan for `B` transforms, `FFTBatched.tpp:200-213`, `FFT.tpp:142-154`:
transform number `t` reads `n` reals at `r + t n` and writes `kS` complex numbers at `k + 2 t kS`. -/
noncomputable def cufftD2Z (B r k : Nat) (mem : Nat → ℝ) : Nat → ℝ := fun x =>
  if k ≤ x ∧ x < k + 2 * (B * kS) then
    let X := dftSum en ek (fun i => mem (r + (x - k) / 2 / kS * n + i)) ((x - k) / 2 % kS)
    if (x - k) % 2 = 0 then X.re else X.im
  else mem x

/-- `cufftExecZ2D`, `FFTBatched.tpp:234-244`, `FFT.tpp:175-183`. -/
noncomputable def cufftZ2D (B k r : Nat) (junk mem : Nat → ℝ) : Nat → ℝ := fun x =>
  if r ≤ x ∧ x < r + B * n then
    if h : (x - r) % n < n then
      c2r en (fun κ => ⟨mem (k + 2 * ((x - r) / n * kS + (ek.symm κ).val)),
        mem (k + 2 * ((x - r) / n * kS + (ek.symm κ).val) + 1)⟩) ⟨(x - r) % n, h⟩
    else 0
  else if k ≤ x ∧ x < k + 2 * (B * kS) then junk x
  else mem x

variable (E : Env)

/-- `FFTBatched::forwardTransform`, `FFTBatched.tpp:190-218`; for `B = 1` `FFT::forwardTransform`,
`FFT.tpp:133-159`. -/
noncomputable def forward (B : Nat) (R K : DArr) (s : St) : Res St :=
  if ¬ R.cap = n * B then .throw
  else if ¬ K.cap = kS * B then .throw
  else cmulEqS E K (1 / (n : ℝ)) ⟨s.ta, cufftD2Z en ek B R.base K.base s.mem, s.clock⟩

/-- `FFTBatched::inverseTransformUnsafe`, `FFTBatched.tpp:223-245`; for `B = 1`
`FFT::inverseTransformUnsafe`, `FFT.tpp:164-185`. -/
noncomputable def inverse (B : Nat) (K R : DArr) (s : St) : Res St :=
  if ¬ K.cap = kS * B then .throw
  else if ¬ R.cap = n * B then .throw
  else .ok ⟨s.ta, cufftZ2D en ek B K.base R.base (E.junk s.clock) s.mem, s.clock + 1⟩

/-! ## Block -/

variable (arr : Name → DArr)

/-- `Block::computeExpKsq`, `Block.tpp:404-426`. -/
noncomputable def computeExpKsq (bead : Bool) (b : Nat) (ds kuhn : ℝ) (s : St) : Res St :=
  let f := -1 * kuhn * kuhn / 6
  let f := if bead then f else f * ds
  expVc E (arr (b, .expKsq)) (arr (0, .kSq)) f s >>= fun s =>
  expVc E (arr (b, .expKsq2)) (arr (0, .kSq)) (f / 2) s

/-- `Block::setupSolver`, `Block.tpp:431-454`, for field `w`; `hasK` is `hasExpKsq_`. -/
noncomputable def setupSolver (bead hasK : Bool) (b : Nat) (w : Name) (ds kuhn : ℝ) (s : St) : Res St :=
  (if bead then
    expVc E (arr (b, .expW)) (arr w) (-1) s >>= fun s =>
    divSV E (arr (b, .expWInv)) 1 (arr (b, .expW)) s
   else
    expVc E (arr (b, .expW)) (arr w) (-(1 / 2) * ds) s >>= fun s =>
    expVc E (arr (b, .expW2)) (arr w) (-(1 / 4) * ds) s) >>= fun s =>
  if hasK then .ok s else computeExpKsq E arr bead b ds kuhn s

/-- `qrPair_` and `qkPair_`, `Block.tpp:282-283`. -/
def qrPair (n b : Nat) : DArr := ⟨(arr (b, .qr)).base, 2 * n⟩
def qkPair (kS b : Nat) : DArr := ⟨(arr (b, .qk)).base, 2 * kS⟩

/-- `Block::stepThread`, `Block.tpp:459-495`. `mulEqVPair` (`VecOpMisc.cu`) is the operation of
`mulVVPair` with inputs and outputs that coincide. -/
noncomputable def stepThread (b : Nat) (qin qout : Name) (s : St) : Res St :=
  lift E (fun ta sch mem => mulVVPair (arr (b, .tmp)).base E.dev ta (arr (b, .qr)) (arr (b, .qr2))
    (arr (b, .expW)) (arr (b, .expW2)) (arr qin) sch mem) s >>= fun s =>
  forward en ek E 2 (qrPair arr n b) (qkPair arr kS b) s >>= fun s =>
  cmulEqV E (arr (b, .qk)) (arr (b, .expKsq)) s >>= fun s =>
  cmulEqV E (arr (b, .qk2)) (arr (b, .expKsq2)) s >>= fun s =>
  inverse en ek E 2 (qkPair arr kS b) (qrPair arr n b) s >>= fun s =>
  lift E (fun ta sch mem => mulVVPair (arr (b, .tmp)).base E.dev ta (arr (b, .qr)) (arr (b, .qr2))
    (arr (b, .qr)) (arr (b, .qr2)) (arr (b, .expW)) sch mem) s >>= fun s =>
  forward en ek E 1 (arr (b, .qr2)) (arr (b, .qk2)) s >>= fun s =>
  cmulEqV E (arr (b, .qk2)) (arr (b, .expKsq2)) s >>= fun s =>
  inverse en ek E 1 (arr (b, .qk2)) (arr (b, .qr2)) s >>= fun s =>
  richardsonEx E (arr qout) (arr (b, .qr)) (arr (b, .qr2)) (arr (b, .expW2)) s

/-- `Block::stepFieldBead`, `Block.tpp:510-519`. -/
def stepFieldBead (b : Nat) (q : Name) (s : St) : Res St :=
  mulEqV E (arr q) (arr (b, .expW)) s

/-- `Block::stepBondBead`, `Block.tpp:524-545`, with `f` = `expKsq_`; `stepHalfBondBead`,
550-568, with `f` = `expKsq2_`. -/
noncomputable def stepBond (b : Nat) (f : Kind) (qin qout : Name) (s : St) : Res St :=
  forward en ek E 1 (arr qin) (arr (b, .qk)) s >>= fun s =>
  cmulEqV E (arr (b, .qk)) (arr (b, f)) s >>= fun s =>
  inverse en ek E 1 (arr (b, .qk)) (arr qout) s

/-- `Block::stepBead`, `Block.tpp:500-505`. -/
noncomputable def stepBead (b : Nat) (qin qout : Name) (s : St) : Res St :=
  stepBond en ek E arr b .expKsq qin qout s >>= fun s => stepFieldBead E arr b qout s

/-! ## Propagator -/

/-- A loop over `i, i+1, …, i+k-1`. -/
def iter {α : Type} (f : Nat → α → Res α) : Nat → Nat → α → Res α
  | _, 0, s => .ok s
  | i, k + 1, s => f i s >>= fun s => iter f (i + 1) k s

/-- Part of `Propagator::solve()` after `computeHead`, `Propagator.tpp:131-166`. For a tail end of
the bead model the code copies slice `ns - 2` to itself. -/
noncomputable def solveFrom (bead : Bool) (b : Nat) (d : Bool) (ns : Nat) (headEnd tailEnd : Bool)
    (s : St) : Res St :=
  if bead then
    (if headEnd then eqV E (arr (b, .q d 1)) (arr (b, .q d 0)) s
     else stepBond en ek E arr b .expKsq2 (b, .q d 0) (b, .q d 1) s) >>= fun s =>
    stepFieldBead E arr b (b, .q d 1) s >>= fun s =>
    iter (fun i => stepBead en ek E arr b (b, .q d i) (b, .q d (i + 1))) 1 (ns - 3) s >>= fun s =>
    if tailEnd then eqV E (arr (b, .q d (ns - 2))) (arr (b, .q d (ns - 2))) s
    else stepBond en ek E arr b .expKsq2 (b, .q d (ns - 2)) (b, .q d (ns - 1)) s
  else iter (fun i => stepThread en ek E arr b (b, .q d i) (b, .q d (i + 1))) 0 (ns - 1) s

/-- `Propagator::solve(head)`, `Propagator.tpp:173-217`; the condition on the tail is negated with
respect to `solve()`. -/
noncomputable def solveHead (bead : Bool) (b : Nat) (d : Bool) (ns : Nat) (headEnd tailEnd : Bool)
    (head : Name) (s : St) : Res St :=
  eqV E (arr (b, .q d 0)) (arr head) s >>= fun s =>
  if bead then
    (if headEnd then eqV E (arr (b, .q d 1)) (arr (b, .q d 0)) s
     else stepBond en ek E arr b .expKsq2 (b, .q d 0) (b, .q d 1) s) >>= fun s =>
    stepFieldBead E arr b (b, .q d 1) s >>= fun s =>
    iter (fun i => stepBead en ek E arr b (b, .q d i) (b, .q d (i + 1))) 1 (ns - 3) s >>= fun s =>
    if !tailEnd then eqV E (arr (b, .q d (ns - 2))) (arr (b, .q d (ns - 2))) s
    else stepBond en ek E arr b .expKsq2 (b, .q d (ns - 2)) (b, .q d (ns - 1)) s
  else iter (fun i => stepThread en ek E arr b (b, .q d i) (b, .q d (i + 1))) 0 (ns - 1) s

/-- `Propagator::computeHead`, `Propagator.tpp:95-117`, for the tails of the (solved) sources. -/
def computeHead (b : Nat) (d : Bool) (tails : List Name) (s : St) : Res St :=
  eqS E (arr (b, .q d 0)) 1 s >>= fun s =>
  if tails = [] then .ok s
  else lift E (fun ta sch mem => opVMany (· * ·) E.dev ta (arr (b, .q d 0))
    (arr (b, .q d 0) :: tails.map arr) sch mem) s

/-! ## Concentrations -/

/-- `for (int j = j0; j < stop; j += 2)`. -/
def iter2 (f : Nat → St → Res St) (j stop : Nat) (s : St) : Res St :=
  if j < stop then f j s >>= fun s => iter2 f (j + 2) stop s else .ok s
termination_by stop - j

/-- `Block::computeConcentrationThread`, `Block.tpp:573-604`. -/
noncomputable def concThread (b ns : Nat) (ds prefactor : ℝ) (s : St) : Res St :=
  let add (v : ℝ) (j : Nat) : St → Res St :=
    addEqMulVVc E (arr (b, .c)) (arr (b, .q false j)) (arr (b, .q true (ns - 1 - j))) v
  eqS E (arr (b, .c)) 0 s >>= fun s =>
  add 1 0 s >>= fun s =>
  addEqMulVVc E (arr (b, .c)) (arr (b, .q false (ns - 1))) (arr (b, .q true 0)) 1 s >>= fun s =>
  iter2 (add 4) 1 (ns - 1) s >>= fun s =>
  iter2 (add 2) 2 (ns - 2) s >>= fun s =>
  mulEqS E (arr (b, .c)) (prefactor * ds / 3) s

/-- `Block::computeConcentrationBead`, `Block.tpp:609-634`. -/
def concBead (b ns : Nat) (prefactor : ℝ) (s : St) : Res St :=
  eqS E (arr (b, .c)) 0 s >>= fun s =>
  iter (fun j => addEqMulVVV E (arr (b, .c)) (arr (b, .q false j)) (arr (b, .q true (ns - 1 - j)))
    (arr (b, .expWInv))) 1 (ns - 2) s >>= fun s =>
  mulEqS E (arr (b, .c)) prefactor s

/-! ## Sums -/

/-- The elements of a real array. -/
def elems (A : DArr) (s : St) : List ℝ := (List.range A.cap).map fun i => s.mem (A.base + i)

/-- Result of a reduction; the bound on the number of launches passed to `gpuSum` is never reached
(C93). -/
def reduce (r : Option (Res (ℝ × TA))) (s : St) : Res (ℝ × St) :=
  match r with
  | some r => r >>= fun p => .ok (p.1, ⟨p.2, s.mem, s.clock + 1⟩)
  | none => .ub

/-- `Reduce::sum`, `Reduce.cu:480-564`. -/
def sumDev (A : DArr) (s : St) : Res (ℝ × St) :=
  reduce (gpuSum E.dev (E.red s.clock) s.ta (A.cap + 2) (elems A s)) s

/-- `Reduce::innerProduct`, `Reduce.cu:891-983`. -/
def innerDev (A B : DArr) (s : St) : Res (ℝ × St) :=
  reduce (gpuInner E.dev (E.red s.clock) s.ta (A.cap + 2) (elems A s) (elems B s)) s

/-- `Propagator::computeQ`, `Propagator.tpp:222-252`, for direction `d` of block `b`. -/
noncomputable def computeQ (n : Nat) (bead headEnd : Bool) (b : Nat) (d : Bool) (ns : Nat) (s : St) :
    Res (ℝ × St) :=
  (if bead && headEnd then sumDev E (arr (b, .q (!d) (ns - 2))) s
   else innerDev E (arr (b, .q d 0)) (arr (b, .q (!d) (ns - 1))) s) >>= fun p =>
  .ok (p.1 / (n : ℝ), p.2)

/-! ## Stress -/

/-- `q0kBatched_.associate(…, j * kSize_, …)`, `Block.tpp:708-710`. -/
def slice (kS b : Nat) (d : Bool) (j : Nat) : DArr := ⟨(arr (b, .qkAll d 0)).base + 2 * (j * kS), kS⟩

/-- Batched transforms of all slices in both directions, `Block.tpp:680-691`, `777-788`. -/
noncomputable def transformAll (batched : Bool) (b ns : Nat) (s : St) : Res St :=
  if batched then
    forward en ek E ns ⟨(arr (b, .q false 0)).base, n * ns⟩
      ⟨(arr (b, .qkAll false 0)).base, kS * ns⟩ s >>= fun s =>
    forward en ek E ns ⟨(arr (b, .q true 0)).base, n * ns⟩ ⟨(arr (b, .qkAll true 0)).base, kS * ns⟩ s
  else .ok s

/-- `VecOp::mulEqV(rTmp, …)`, `Block.tpp:827`, `859`, `888`; absent in the thread model. -/
def mulFactor (b : Nat) : Option Kind → St → Res St
  | none => fun s => .ok s
  | some f => mulEqV E (arr (b, .rTmp)) (arr (b, f))

/-- The increment for slices `j0` and `j1`: transforms (unless already done), `realMulVConjVV`,
multiplication by `f` in the bead model, sum. `Block.tpp:705-717, 728-737`, `814-831`, `841-866`,
`878-892`. -/
noncomputable def waveTerm (batched : Bool) (b : Nat) (f : Option Kind) (j0 j1 : Nat) (s : St) :
    Res (ℝ × St) :=
  (if batched then .ok s
   else
    forward en ek E 1 (arr (b, .q false j0)) (arr (b, .qkOne false)) s >>= fun s =>
    forward en ek E 1 (arr (b, .q true j1)) (arr (b, .qkOne true)) s) >>= fun s =>
  realMulVConjVV E (arr (b, .rTmp))
    (if batched then slice arr kS b false j0 else arr (b, .qkOne false))
    (if batched then slice arr kS b true j1 else arr (b, .qkOne true)) (arr (0, .dKSq)) s >>= fun s =>
  mulFactor E arr b f s >>= fun s =>
  sumDev E (arr (b, .rTmp)) s

/-- Factor `dels`, `Block.tpp:719-726`. -/
noncomputable def dels (ns : Nat) (ds : ℝ) (j : Nat) : ℝ :=
  if j ≠ 0 ∧ j ≠ ns - 1 then (if j % 2 = 0 then ds * 2 else ds * 4) else ds

/-- `dQ[n] -= increment * v`. -/
noncomputable def takeTerm (batched : Bool) (b : Nat) (f : Option Kind) (j0 j1 : Nat) (v : ℝ)
    (p : ℝ × St) : Res (ℝ × St) :=
  waveTerm en ek E arr batched b f j0 j1 p.2 >>= fun r => .ok (p.1 - r.1 * v, r.2)

/-- `Block::computeStressThread`, `Block.tpp:639-752`. -/
noncomputable def stressThread (batched : Bool) (b ns : Nat) (ds kuhn prefactor : ℝ) (s : St) :
    Res (ℝ × St) :=
  transformAll en ek E arr batched b ns s >>= fun s =>
  iter (fun j => takeTerm en ek E arr batched b none j (ns - 1 - j)
    (kuhn * kuhn * dels ns ds j / (3 * 6))) 0 ns (0, s) >>= fun p =>
  .ok (0 - p.1 * prefactor, p.2)

/-- `Block::computeStressBead`, `Block.tpp:757-905`. -/
noncomputable def stressBead (batched : Bool) (b ns : Nat) (headEnd tailEnd : Bool)
    (kuhn prefactor : ℝ) (s : St) : Res (ℝ × St) :=
  let bSq := kuhn * kuhn / 6
  let half := 1 / 2 * bSq
  transformAll en ek E arr batched b ns s >>= fun s =>
  (if !headEnd then takeTerm en ek E arr batched b (some .expKsq2) 0 (ns - 2) half (0, s)
   else .ok (0, s)) >>= fun p =>
  iter (fun j => takeTerm en ek E arr batched b (some .expKsq) j (ns - 2 - j) bSq) 1 (ns - 3)
    p >>= fun p =>
  (if !tailEnd then takeTerm en ek E arr batched b (some .expKsq2) (ns - 2) 0 half p
   else .ok p) >>= fun p =>
  .ok ((-1) * prefactor * p.1, p.2)

/-! ## Polymer -/

/-- Data of the blocks of a polymer: monomer type, number of slices, contour step, segment length,
and whether `expKsq_` is already known. -/
structure Blocks where
  mono : Nat → Nat
  ns : Nat → Nat
  ds : Nat → ℝ
  kuhn : Nat → ℝ
  hasK : Nat → Bool

open Verif.Chem in
/-- The loop over the plan in `PolymerTmpl::solve`, `PolymerTmpl.tpp:162-165`, with `isSolved`
flags. -/
noncomputable def solvePlan (bead : Bool) (es : List Edge) (vs : List Vertex) (ns : Nat → Nat) :
    List Pid → (Pid → Bool) × St → Res ((Pid → Bool) × St)
  | [], x => .ok x
  | p :: ps, x =>
    if (sources es vs p).all x.1 then
      computeHead E arr p.1 p.2 ((sources es vs p).map fun q => (q.1, .q q.2 (ns q.1 - 1)))
        x.2 >>= fun s =>
      solveFrom en ek E arr bead p.1 p.2 (ns p.1) (headEnd es vs p) (tailEnd es vs p) s >>= fun s =>
      solvePlan bead es vs ns ps (fun q => if q = p then true else x.1 q, s)
    else .throw

open Verif.Chem in
/-- `Polymer::compute`, `rpg/solvers/Polymer.tpp:58-87`, with `PolymerTmpl::solve`,
`PolymerTmpl.tpp:151-178`. `phiOf` gives the volume fraction after `Species::setQ`; `total` is the
length or number of beads. Returns `Q`. -/
noncomputable def polymerCompute (bead : Bool) (es : List Edge) (vs : List Vertex) (plan : List Pid)
    (B : Blocks) (phiTot total : ℝ) (phiOf : ℝ → ℝ) (s : St) : Res (ℝ × St) :=
  iter (fun k => setupSolver E arr bead (B.hasK k) k (B.mono k, .w) (B.ds k) (B.kuhn k)) 0 es.length
    s >>= fun s =>
  solvePlan en ek E arr bead es vs B.ns plan (fun _ => false, s) >>= fun x =>
  computeQ E arr n bead (headEnd es vs (0, false)) 0 false (B.ns 0) x.2 >>= fun p =>
  let Q := p.1 / phiTot
  let prefactor := phiOf Q / (Q * total)
  iter (fun k => if bead then concBead E arr k (B.ns k) prefactor
    else concThread E arr k (B.ns k) (B.ds k) prefactor) 0 es.length p.2 >>= fun s =>
  .ok (Q, s)

open Verif.Chem in
/-- `Polymer::computeStress`, `rpg/solvers/Polymer.tpp:92-124`. -/
noncomputable def polymerStress (batched bead : Bool) (es : List Edge) (vs : List Vertex)
    (B : Blocks) (phi Q total : ℝ) (s : St) : Res (ℝ × St) :=
  iter (fun k p =>
    (if bead then stressBead en ek E arr batched k (B.ns k) (headEnd es vs (k, false))
      (tailEnd es vs (k, false)) (B.kuhn k) (phi / (Q * total)) p.2
     else stressThread en ek E arr batched k (B.ns k) (B.ds k) (B.kuhn k) (phi / (Q * total))
      p.2) >>= fun r => .ok (p.1 + r.1, r.2)) 0 es.length (0, s)

/-- `Solvent::compute`, `rpg/solvers/Solvent.tpp:35-60`, for the field of monomer type `w`; the array
`(b, c)` is `cField_`. -/
noncomputable def solventCompute (n b w : Nat) (size phiTot : ℝ) (phiOf : ℝ → ℝ) (s : St) :
    Res (ℝ × St) :=
  expVc E (arr (b, .c)) (arr (w, .w)) (-1 * size) s >>= fun s =>
  sumDev E (arr (b, .c)) s >>= fun p =>
  let Q := p.1 / (n : ℝ)
  let Q := Q / phiTot
  mulEqS E (arr (b, .c)) (phiOf Q / Q) p.2 >>= fun s => .ok (Q, s)

end Fft

end Verif.Rpg
