import Verif.Solver.Dft
import Verif.Crystal.WaveListModel

/-!
# Model of the stress computed from a solution of the diffusion equations

Sources: `/repo/src/rpc/solvers/{Block,Polymer}.tpp`, `/repo/src/prdc/solvers/MixturePrdc.tpp`.

One unit cell parameter is considered; the loops over parameters are independent. The order of the
waves in the sums is not represented (exact arithmetic).
-/

set_option autoImplicit false

namespace Verif.Solver

open Verif.Chem

variable {m : Nat} {N : Fin (m + 1) → Nat} [∀ d, NeZero (N d)] {n : Nat} (en : Fin n ≃ Grid N)

noncomputable section

/-- Loop over wavevectors, `Block.tpp:596-600`, `668-672`, `694-698`, `721-725`. -/
def waveSum (dk : Half N → ℝ) (x y : Fld n ℝ) : ℝ :=
  ∑ k : Half N, ((r2c en y k).re * (r2c en x k).re + (r2c en y k).im * (r2c en x k).im) * dk k

/-- Factor `dels`, `Block.tpp:578-586`. -/
def simpson (ns : Nat) (ds : ℝ) (j : Nat) : ℝ :=
  let dels := ds / 3
  if j ≠ 0 ∧ j ≠ ns - 1 then (if j % 2 = 0 then dels * 2 else dels * 4) else dels

/-- `Block::computeStressThread`, `Block.tpp:537-611`. -/
def stressThread (ns : Nat) (ds kuhn : ℝ) (dKSq : Half N → ℝ) (prefactor : ℝ)
    (q0 q1 : Nat → Fld n ℝ) : ℝ :=
  let bSq := kuhn * kuhn / 6
  let dQ := accum ns (fun j =>
    -(waveSum en dKSq (q0 j) (q1 (ns - 1 - j)) * (bSq * simpson ns ds j))) 0;
  -1 * prefactor * dQ

/-- `Block::computeStressBead`, `Block.tpp:617-742`; `e` is `isHeadEnd()` and `e'` is
`isTailEnd()` of the forward propagator. -/
def stressBead (b : Arrays ℝ n (Half N)) (ns : Nat) (e e' : Bool) (kuhn : ℝ) (dKSq : Half N → ℝ)
    (prefactor : ℝ) (q0 q1 : Nat → Fld n ℝ) : ℝ :=
  let bSq := kuhn * kuhn / 6
  let dQ := if e then 0 else
    0 - waveSum en (fun k => dKSq k * b.expKsq2 k) (q0 0) (q1 (ns - 2)) * (1 / 2 * bSq)
  let dQ := accum (ns - 3) (fun j =>
    -(waveSum en (fun k => dKSq k * b.expKsq k) (q0 (j + 1)) (q1 (ns - 2 - (j + 1))) * bSq)) dQ
  let dQ := if e' then dQ else
    dQ - waveSum en (fun k => dKSq k * b.expKsq2 k) (q0 (ns - 2)) (q1 0) * (1 / 2 * bSq);
  -1 * prefactor * dQ

/-- Stress of one block in `Polymer::computeStress`, `Polymer.tpp:88-104`; `none` if a propagator is
not solved. -/
def blockStress (bead : Bool) (blk : Nat → BlockData ℝ n (Half N)) (kuhn : Nat → ℝ)
    (es : List Edge) (vs : List Vertex) (dKSq : Half N → ℝ)
    (st : Pid → Option (Nat → Fld n ℝ)) (phi Q total : ℝ) (k : Nat) : Option ℝ :=
  match st (k, false), st (k, true) with
  | some q, some q' => some (
      if bead then stressBead en (blk k).arrays (blk k).ns (headEnd es vs (k, false))
        (tailEnd es vs (k, false)) (kuhn k) dKSq (phi / (Q * total)) q q'
      else stressThread en (blk k).ns (blk k).ds (kuhn k) dKSq (phi / (Q * total)) q q')
  | _, _ => none

/-- `Polymer::computeStress`, `Polymer.tpp:88-118`: sum over blocks. -/
def polymerStress (bead : Bool) (blk : Nat → BlockData ℝ n (Half N)) (kuhn : Nat → ℝ)
    (es : List Edge) (vs : List Vertex) (dKSq : Half N → ℝ)
    (st : Pid → Option (Nat → Fld n ℝ)) (phi Q total : ℝ) : Option ℝ :=
  (List.range es.length).foldl (fun acc k =>
    match acc, blockStress en bead blk kuhn es vs dKSq st phi Q total k with
    | some a, some s => some (a + s)
    | _, _ => none) (some 0)

/-- `MixturePrdc::computeStress`, `MixturePrdc.tpp:229-266`, from the stresses of the polymers. -/
def mixtureStress (phiTot : ℝ) (polymers : List ℝ) : ℝ := polymers.foldl (· + ·) 0 / phiTot

/-- The array `dKSq` of the wave list for one parameter, `WaveList.tpp:193-202`, given the derivatives
`dk` of the squared wavenumbers; the test is `FFT<D>::hasImplicitInverse`. -/
def codeDKSq (dk : Half N → ℝ) : Half N → ℝ := fun k =>
  if Crystal.hasImplicitInverse ((k.1 (Fin.last m)).val : Int) (N (Fin.last m)) then dk k * 2
  else dk k

/-- The array that the conventions of the real transform ask for: factor 2 for a wave whose
inverse is not stored. -/
def trueDKSq (dk : Half N → ℝ) : Half N → ℝ := fun k =>
  if Stored (-k.1) then dk k else dk k * 2

end

end Verif.Solver
