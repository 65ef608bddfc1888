import Verif.AM.Model
import Verif.Inter.Model
import Verif.Solver.Model
import Mathlib.Analysis.SpecialFunctions.Pow.Real

/-!
# Model of the Anderson-mixing iterators of the periodic programs

Sources: `/repo/src/rpc/scft/iterator/AmIteratorGrid.tpp`, `AmIteratorBasis.tpp`,
`/repo/src/rpg/scft/iterator/AmIteratorGrid.tpp`, `AmIteratorBasis.tpp`, and the error of
`/repo/src/pscf/iterator/AmIteratorTmpl.tpp`.

A field has `L` elements: values at the points of the mesh (`grid`), or coefficients of the symmetric
basis functions, of which number 0 is the constant 1. Numbers are real. Not a number and infinite
values do not occur, except in the relative error (see `computeError`). Checks of array capacities
and of the final value of `counter` are left out; both always hold. Averages on the GPU
(`Reduce::sum`) are sums (C93).
-/

set_option autoImplicit false

namespace Verif.Scft

open Verif.Inter Verif.Solver

/-- Constants of the iterator: `isCanonical()`, `interaction_` (`chi`, `chiInverse`), unit cell
parameters (`nParam`) and which of them are flexible, `scaleStress_`. -/
structure Prob (M : Nat) where
  grid : Bool
  canonical : Bool
  chi : Mat ℝ M
  inv : Mat ℝ M
  isFlexible : Bool
  nParam : Nat
  flexible : Nat → Bool
  scale : ℝ

/-- Results of `System::compute`: concentrations, stress, and mask and external fields, which may be
generated for the current unit cell. -/
structure Eval (M L : Nat) where
  c : Fin M → Fld L ℝ
  stress : Nat → ℝ
  mask : Option (Fld L ℝ)
  ext : Option (Fin M → Fld L ℝ)

/-- State of the system: fields, unit cell parameters and results of the last computation. -/
structure St (M L : Nat) where
  w : Fin M → Fld L ℝ
  par : Nat → ℝ
  ev : Eval M L

section

variable {M L : Nat} (P : Prob M)

/-- `nFlexibleParams()`, `rpc/scft/iterator/Iterator.tpp:54-63`, for the first `i` parameters. -/
def nFlex (flag : Nat → Bool) : Nat → Nat
  | 0 => 0
  | i + 1 => nFlex flag i + if flag i then 1 else 0

/-- `nElements`, `rpc/.../AmIteratorGrid.tpp:131-141` (same in all four classes). -/
def nElements (L : Nat) : Nat := M * L + if P.isFlexible then nFlex P.flexible P.nParam else 0

/-- The loops `state[i*nMesh + k] = field[k]`, `rpc/.../AmIteratorGrid.tpp:162-169`. -/
def storeFields (f : Fin M → Fld L ℝ) (v : Nat → ℝ) : Nat → ℝ :=
  (List.finRange M).foldl (fun v i => (List.finRange L).foldl
    (fun v k => Function.update v (i.val * L + k.val) (f i k)) v) v

/-- The loop with `counter`, `rpc/.../AmIteratorGrid.tpp:177-184`, `287-294`: `pos` is
`begin + counter`. -/
def storeFlex (flag : Nat → Bool) (val : Nat → ℝ) : Nat → Nat → Nat → (Nat → ℝ) → (Nat → ℝ)
  | 0, _, _, v => v
  | t + 1, i, pos, v =>
    if flag i then storeFlex flag val t (i + 1) (pos + 1) (Function.update v pos (val i))
    else storeFlex flag val t (i + 1) pos v

/-- The loop over parameters of `update`, `rpc/.../AmIteratorGrid.tpp:386-394`. -/
def loadFlex (flag : Nat → Bool) (coeff : ℝ) (y : Nat → ℝ) : Nat → Nat → Nat → (Nat → ℝ) → (Nat → ℝ)
  | 0, _, _, p => p
  | t + 1, i, pos, p =>
    if flag i then loadFlex flag coeff y t (i + 1) (pos + 1) (Function.update p i (coeff * y pos))
    else loadFlex flag coeff y t (i + 1) pos p

/-- The same loop in `rpg/.../AmIteratorGrid.tpp:329-340`: `tempH` holds the last `cap` elements of
the vector and is read at `i` instead of `counter`. -/
def loadFlexGpu (flag : Nat → Bool) (coeff : ℝ) (tempH : Nat → ℝ) (cap : Nat) :
    Nat → Nat → (Nat → ℝ) → Res (Nat → ℝ)
  | 0, _, p => .ok p
  | t + 1, i, p =>
    if flag i then
      if i < cap then loadFlexGpu flag coeff tempH cap t (i + 1)
        (Function.update p i (coeff * tempH i))
      else .ub
    else loadFlexGpu flag coeff tempH cap t (i + 1) p

/-- A vector of the iterator from fields and values for the unit cell parameters. -/
def pack (f : Fin M → Fld L ℝ) (val : Nat → ℝ) (x : Fin (nElements P L)) : ℝ :=
  let v := storeFields f (fun _ => 0)
  if P.isFlexible then storeFlex P.flexible val P.nParam 0 (M * L) v x else v x

/-- `getCurrent`, `rpc/.../AmIteratorGrid.tpp:154-188`, `AmIteratorBasis.tpp:149-183`,
`rpg/.../AmIteratorGrid.tpp:149-183`, `AmIteratorBasis.tpp:156-185`. -/
def getCurrent (s : St M L) : AM.Vec ℝ (nElements P L) :=
  pack P s.w (fun i => P.scale * s.par i)

/-- Spatial average: sum over the mesh divided by its size, or coefficient of the constant function. -/
noncomputable def mean (grid : Bool) (f : Fld L ℝ) : ℝ :=
  if grid then accum L f 0 / (L : ℝ) else if h : 0 < L then f ⟨0, h⟩ else 0

/-- Field residuals of the CPU programs without the step for the canonical ensemble,
`rpc/.../AmIteratorGrid.tpp:208-255` and `rpc/.../AmIteratorBasis.tpp:203-247`. -/
noncomputable def rawCpu (s : St M L) (i : Fin M) (k : Fin L) : ℝ :=
  let shift := -1 / sumChiInverse P.inv
  let r := accum M (fun j => match s.ev.ext with
    | some h => P.chi i j * s.ev.c j k + pMatrix P.inv i j * (h j k - s.w j k)
    | none => P.chi i j * s.ev.c j k - pMatrix P.inv i j * s.w j k) 0
  match s.ev.mask with
  | some m => r + shift * m k
  | none => if P.grid then r + shift else if k.val = 0 then r + shift else r

/-- Field residuals of the CPU programs, `rpc/.../AmIteratorGrid.tpp:208-271` and
`rpc/.../AmIteratorBasis.tpp:203-254`. -/
noncomputable def residCpu (s : St M L) (i : Fin M) (k : Fin L) : ℝ :=
  if P.canonical then
    if P.grid then rawCpu P s i k - accum L (rawCpu P s i) 0 / (L : ℝ)
    else if k.val = 0 then 0 else rawCpu P s i k
  else rawCpu P s i k

/-- Field residuals of the GPU programs up to the step that depends on the ensemble,
`rpg/.../AmIteratorGrid.tpp:205-243` and `rpg/.../AmIteratorBasis.tpp:209-253`. -/
noncomputable def rawGpu (s : St M L) (i : Fin M) (k : Fin L) : ℝ :=
  let r := accum M (fun j => s.ev.c j k * P.chi i j + s.w j k * (-pMatrix P.inv i j)) 0
  let r := match s.ev.mask with
    | some m => r + m k * (-1 / sumChiInverse P.inv)
    | none => r
  match s.ev.ext with
  | some h => accum M (fun j => h j k * pMatrix P.inv i j) r
  | none => r

/-- Field residuals of the GPU programs, `rpg/.../AmIteratorGrid.tpp:205-256` and
`rpg/.../AmIteratorBasis.tpp:209-265`. -/
noncomputable def residGpu (s : St M L) (i : Fin M) (k : Fin L) : ℝ :=
  if P.canonical then
    if P.grid then rawGpu P s i k - accum L (rawGpu P s i) 0 / (L : ℝ)
    else if k.val = 0 then 0 else rawGpu P s i k
  else if P.grid then rawGpu P s i k - 1 / sumChiInverse P.inv
  else if k.val = 0 then rawGpu P s i k - 1 / sumChiInverse P.inv else rawGpu P s i k

/-- `getResidual`; the stress residuals are in `rpc/.../AmIteratorGrid.tpp:273-296`. -/
noncomputable def getResidual (gpu : Bool) (s : St M L) : AM.Vec ℝ (nElements P L) :=
  pack P (if gpu then residGpu P s else residCpu P s) (fun i => -1 * P.scale * s.ev.stress i)

/-- Vector as an array; elements beyond the end are never read. -/
def arr (y : AM.Vec ℝ (nElements P L)) (x : Nat) : ℝ := if h : x < nElements P L then y ⟨x, h⟩ else 0

/-- New fields of `update`, `rpc/.../AmIteratorGrid.tpp:316-375`, `AmIteratorBasis.tpp:293-338`,
`rpg/.../AmIteratorGrid.tpp:288-321`, `AmIteratorBasis.tpp:305-333`: in the canonical ensemble the
average is replaced by that of `chi c` and the external field. -/
noncomputable def newFields (s : St M L) (y : Nat → ℝ) (i : Fin M) (k : Fin L) : ℝ :=
  let f (k : Fin L) : ℝ := y (i.val * L + k.val)
  let wAve := accum M (fun j => P.chi i j * mean P.grid (s.ev.c j)) 0
  let hAve (x : ℝ) : ℝ := match s.ev.ext with
    | some h => x + mean P.grid (h i)
    | none => x
  if P.canonical then
    if P.grid then hAve (f k - accum L f 0 / (L : ℝ) + wAve)
    else if k.val = 0 then hAve wAve else f k
  else f k

/-- `update` of the CPU programs and of `rpg/.../AmIteratorBasis.tpp`; the results of the last
computation stay in place. -/
noncomputable def update (s : St M L) (y : AM.Vec ℝ (nElements P L)) : St M L where
  w := newFields P s (arr P y)
  par := if P.isFlexible then loadFlex P.flexible (1 / P.scale) (arr P y) P.nParam 0 (M * L) s.par
    else s.par
  ev := s.ev

/-- `update` of `rpg/.../AmIteratorGrid.tpp:283-345`. -/
noncomputable def updateGpu (s : St M L) (y : AM.Vec ℝ (nElements P L)) : Res (St M L) :=
  (if P.isFlexible then
    loadFlexGpu P.flexible (1 / P.scale) (fun x => arr P y (M * L + x)) (nFlex P.flexible P.nParam)
      P.nParam 0 s.par
   else .ok s.par).bind fun p => .ok ⟨newFields P s (arr P y), p, s.ev⟩

/-- `evaluate`: `System::compute` for the current fields and unit cell. -/
def evaluate (E : (Fin M → Fld L ℝ) → (Nat → ℝ) → Eval M L) (s : St M L) : St M L :=
  { s with ev := E s.w s.par }

/-- The operations used by the Anderson-mixing algorithm. -/
noncomputable def sys (gpu : Bool) (E : (Fin M → Fld L ℝ) → (Nat → ℝ) → Eval M L) :
    AM.Sys (St M L) ℝ (nElements P L) where
  getCurrent := getCurrent P
  getResidual := getResidual P gpu
  update := update P
  evaluate := evaluate E

end

/-! ## Error -/

/-- `errorType_`. -/
inductive ErrorType where
  | maxResid | normResid | rmsResid | relNormResid

/-- `maxAbs`, `AmIteratorDArray.tpp:52-68`. -/
noncomputable def maxAbs {N : Nat} (r : AM.Vec ℝ N) : ℝ :=
  (List.finRange N).foldl (fun m i => if |r i| > m then |r i| else m) 0

/-- `norm`, `AmIteratorTmpl.tpp:753-757`. -/
noncomputable def norm {N : Nat} (r : AM.Vec ℝ N) : ℝ := Real.sqrt (AM.dot r r)

/-- `computeError`, `AmIteratorTmpl.tpp:637-691`. If the norm of the state is zero the relative norm
is infinite or not a number, and is not less than `eps`; the value `eps` stands for this. -/
noncomputable def computeError {N : Nat} (t : ErrorType) (eps : ℝ) (r x : AM.Vec ℝ N) : Option ℝ :=
  match t with
  | .maxResid => some (maxAbs r)
  | .normResid => some (norm r)
  | .rmsResid => some (norm r / Real.sqrt N)
  | .relNormResid => if norm x = 0 then some eps else some (norm r / norm x)

end Verif.Scft
