import Verif.Solver.Model
import Mathlib.Analysis.SpecialFunctions.Complex.CircleAddChar
import Mathlib.Analysis.SpecialFunctions.Exp

/-!
# Discrete Fourier transforms and the arrays used by a block

Sources: `/repo/src/prdc/cpu/FFT.tpp` (real transforms), `/repo/src/rpc/solvers/Block.tpp:205-270`.

FFTW itself is not modelled: `fftw_execute_dft_r2c` and `fftw_execute_dft_c2r` are replaced by the
sums given in the FFTW manual. `c2r` uses only the half of the wavevectors with last index at most
`N/2`; the others are the complex conjugates of their inverses. For input that is not Hermitian
on the planes where both a wave and its inverse are stored, FFTW specifies nothing; the model
takes the real part of the sum. Real numbers stand for `double`.
-/

set_option autoImplicit false

namespace Verif.Solver

variable {m : Nat} (N : Fin (m + 1) → Nat) [∀ d, NeZero (N d)]

/-- Points of the mesh, and waves of the full DFT mesh. -/
abbrev Grid := ∀ d, ZMod (N d)

variable {N}

/-- `exp(2 π i Σ_d k_d x_d / N_d)`. -/
noncomputable def wave (k x : Grid N) : ℂ := ∏ d, ZMod.stdAddChar (k d * x d)

/-- Waves stored by a real-to-complex transform, `FFT<D>::computeKMesh`, `FFT.tpp:262-275`. -/
def Stored (k : Grid N) : Prop := (k (Fin.last m)).val ≤ N (Fin.last m) / 2

instance (k : Grid N) : Decidable (Stored k) := inferInstanceAs (Decidable (_ ≤ _))

variable (N) in
/-- The half mesh. -/
abbrev Half := { k : Grid N // Stored k }

variable {n : Nat} (en : Fin n ≃ Grid N)

/-- `FFT<D>::forwardTransform(RField, RFieldDft)`, `FFT.tpp:151-172`. `en` maps a rank to its
mesh position. -/
noncomputable def r2c (q : Fld n ℝ) (k : Half N) : ℂ :=
  (∑ i, (q i : ℂ) * (starRingEnd ℂ) (wave k.1 (en i))) * (1 / (n : ℝ) : ℝ)

/-- The wave whose inverse is stored, if it is not stored itself. -/
theorem stored_neg {k : Grid N} (h : ¬ Stored k) : Stored (-k) := by
  unfold Stored at *
  rw [Pi.neg_apply, ZMod.neg_val]
  split
  · omega
  · omega

/-- Coefficients of all waves, given those of the half mesh. -/
noncomputable def extend (X : Half N → ℂ) (k : Grid N) : ℂ :=
  if h : Stored k then X ⟨k, h⟩ else (starRingEnd ℂ) (X ⟨-k, stored_neg h⟩)

/-- `FFT<D>::inverseTransformUnsafe`, `FFT.tpp:179-190`. -/
noncomputable def c2r (X : Half N → ℂ) : Fld n ℝ := fun i =>
  (∑ k : Grid N, extend X k * wave k (en i)).re

/-- Forward transform, multiplication by a real array, inverse transform; `Block.tpp:307-321, 378-383, 404-409`. -/
noncomputable def dftKin : Kin ℝ n (Half N) := fun f q => c2r en (fun k => r2c en q k * (f k : ℂ))

/-- Arrays of a thread block after `setupSolver(w)`: `Block.tpp:205-270`. `ksq` is
`waveList.kSq()`, `kuhn` the statistical segment length. -/
noncomputable def threadArrays (w : Fld n ℝ) (ds kuhn : ℝ) (ksq : Half N → ℝ) :
    Arrays ℝ n (Half N) where
  expW := fun i => Real.exp (-(1 / 2) * ds * w i)
  expW2 := fun i => Real.exp (1 / 2 * (-(1 / 2) * ds * w i))
  expWInv := fun _ => 0
  expKsq := fun k => Real.exp (ksq k * (-1 * kuhn * kuhn / 6 * ds))
  expKsq2 := fun k => Real.exp (1 / 2 * (ksq k * (-1 * kuhn * kuhn / 6 * ds)))

/-- Arrays of a bead block after `setupSolver(w)`, `Block.tpp:205-270`. -/
noncomputable def beadArrays (w : Fld n ℝ) (kuhn : ℝ) (ksq : Half N → ℝ) :
    Arrays ℝ n (Half N) where
  expW := fun i => Real.exp (-w i)
  expW2 := fun _ => 0
  expWInv := fun i => 1 / Real.exp (-w i)
  expKsq := fun k => Real.exp (ksq k * (-1 * kuhn * kuhn / 6))
  expKsq2 := fun k => Real.exp (1 / 2 * (ksq k * (-1 * kuhn * kuhn / 6)))

/-- A block after `setupSolver(w)`, `Block.tpp:205-270`. -/
noncomputable def realBlock (bead : Bool) (w : Fld n ℝ) (ns : Nat) (ds kuhn : ℝ)
    (ksq : Half N → ℝ) : BlockData ℝ n (Half N) :=
  ⟨if bead then beadArrays w kuhn ksq else threadArrays w ds kuhn ksq, ns, ds⟩

end Verif.Solver
