import Verif.Fts.EigenProps
import Mathlib.Analysis.SpecialFunctions.Exp
import Mathlib.Analysis.Real.Pi.Bounds

/-!
# C80: detailed balance of the Monte-Carlo moves

Sources: `/repo/src/rpc/fts/montecarlo/{ForceBiasMove,RealMove,McMove}.tpp`.
`Random::metropolis(w)` (Util) is assumed to accept with probability `min 1 w`, and
`Random::gaussian()` to return independent standard normal numbers.
-/

set_option autoImplicit false
set_option linter.unusedSectionVars false

namespace Verif.Fts

open Finset

noncomputable section

variable {m n : Nat}

/-- Components on the grid, for all eigenvectors but the last. -/
abbrev Comps (m n : Nat) := Fin m → Fin n → ℝ

/-- Displacement attempted by a force bias move, `ForceBiasMove.tpp:133-149`, from the forces `dc`
and Gaussian random numbers `g`. -/
def fbDisplacement (mobility vSystem : ℝ) (dc g : Comps m n) : Comps m n := fun j k =>
  let vNode := vSystem / (n : ℝ)
  let a := -1 * mobility
  let b := √(2 * mobility / vNode)
  a * dc j k + b * g j k

/-- Displacement of `ExplicitBdStep::step`, `ExplicitBdStep.tpp:92-106`. -/
def bdDisplacement (mobility vSystem : ℝ) (dc g : Comps m n) : Comps m n := fun j k =>
  -1 * mobility * dc j k + √(2 * mobility * (n : ℝ) / vSystem) * g j k

/-- Displacement of `RealMove::attemptMove`, `RealMove.tpp:79-107`. -/
def realDisplacement (sigma : ℝ) (g : Comps m n) : Comps m n := fun j k => sigma * g j k

/-- The bias of a force bias move, `ForceBiasMove.tpp:194-207`: `di`, `df` forces before and after,
`dwc` displacement. -/
def fbBias (mobility vSystem : ℝ) (di df dwc : Comps m n) : ℝ :=
  accum m (fun j => accum n (fun k =>
    (1 / 2 * (di j k + df j k)) * (dwc j k + mobility * (1 / 2 * (di j k - df j k)))) 0) 0
    * (vSystem / (n : ℝ))

/-- Acceptance probability of a force bias move, `ForceBiasMove.tpp:213-214`. -/
def fbAccept (mobility vSystem : ℝ) (di df dwc : Comps m n) (oldH newH : ℝ) : ℝ :=
  min 1 (Real.exp (fbBias mobility vSystem di df dwc - (newH - oldH)))

/-- Acceptance probability of other moves, `McMove.tpp:142-143`. -/
def mcAccept (oldH newH : ℝ) : ℝ := min 1 (Real.exp (-(newH - oldH)))

/-! ## Independent definitions -/

/-- Density of the normal distribution. -/
def normalPdf (mean var x : ℝ) : ℝ :=
  Real.exp (-(x - mean) ^ 2 / (2 * var)) / √(2 * Real.pi * var)

/-- Density of attempting the displacement `d` when every component at every grid point is an
independent normal variable with mean `mean j k` and variance `var`. -/
def attemptPdf (mean : Comps m n) (var : ℝ) (d : Comps m n) : ℝ :=
  ∏ j, ∏ k, normalPdf (mean j k) var (d j k)

/-- The displacement of a force bias move is, point by point, an affine image of a standard normal
variable with mean `-mobility dc` and variance `2 mobility / vNode`. -/
theorem C80_attempt (mobility vSystem : ℝ) (hm : 0 < mobility) (hv : 0 < vSystem) (hn : 0 < n)
    (dc g : Comps m n) (j : Fin m) (k : Fin n) :
    ∃ s : ℝ, 0 < s ∧ s ^ 2 = 2 * mobility / (vSystem / (n : ℝ)) ∧
      fbDisplacement mobility vSystem dc g j k = -(mobility * dc j k) + s * g j k := by
  have hn' : (0 : ℝ) < n := by exact_mod_cast hn
  refine ⟨√(2 * mobility / (vSystem / n)), Real.sqrt_pos.2 (by positivity),
    Real.sq_sqrt (by positivity), ?_⟩
  simp only [fbDisplacement]
  ring

/-- A force bias move attempts the same displacements as an explicit Brownian dynamics step. -/
theorem C80_same_as_bd (mobility vSystem : ℝ) (dc g : Comps m n) :
    fbDisplacement mobility vSystem dc g = bdDisplacement mobility vSystem dc g := by
  funext j k
  simp only [fbDisplacement, bdDisplacement, div_div_eq_mul_div]

theorem min_balance (x y r : ℝ) (hx : 0 < x) (hr : 0 < r) (hy : y = x * r) :
    x * min 1 r = y * min 1 r⁻¹ := by
  have hy0 : 0 ≤ y := by rw [hy]; positivity
  rw [mul_min_of_nonneg _ _ hx.le, mul_min_of_nonneg _ _ hy0, mul_one, mul_one, ← hy, min_comm]
  congr 1
  rw [hy]
  field_simp

theorem normalPdf_pos (mean var x : ℝ) (hv : 0 < var) : 0 < normalPdf mean var x := by
  have := Real.pi_pos
  unfold normalPdf
  positivity

theorem attemptPdf_pos (mean : Comps m n) (var : ℝ) (hv : 0 < var) (d : Comps m n) :
    0 < attemptPdf mean var d :=
  prod_pos fun _ _ => prod_pos fun _ _ => normalPdf_pos _ _ _ hv

theorem bias_eq (mobility vSystem : ℝ) (di df dwc : Comps m n) :
    fbBias mobility vSystem di df dwc = ∑ j, ∑ k, vSystem / (n : ℝ) *
      ((1 / 2 * (di j k + df j k)) * (dwc j k + mobility * (1 / 2 * (di j k - df j k)))) := by
  simp only [fbBias, accum_eq, zero_add, sum_mul]
  exact sum_congr rfl fun j _ => sum_congr rfl fun k _ => by ring

/-- The bias is the logarithm of the ratio of the densities of the reverse and the forward
attempt. -/
theorem C80_bias (mobility vSystem : ℝ) (hm : 0 < mobility) (hv : 0 < vSystem) (hn : 0 < n)
    (di df dwc : Comps m n) :
    attemptPdf (fun j k => -(mobility * df j k)) (2 * mobility / (vSystem / (n : ℝ)))
        (fun j k => -dwc j k) =
      attemptPdf (fun j k => -(mobility * di j k)) (2 * mobility / (vSystem / (n : ℝ))) dwc *
        Real.exp (fbBias mobility vSystem di df dwc) := by
  have hn' : (0 : ℝ) < n := by exact_mod_cast hn
  rw [bias_eq, Real.exp_sum]
  simp only [Real.exp_sum, attemptPdf]
  rw [← prod_mul_distrib]
  refine prod_congr rfl fun j _ => ?_
  rw [← prod_mul_distrib]
  refine prod_congr rfl fun k _ => ?_
  unfold normalPdf
  rw [div_mul_eq_mul_div, ← Real.exp_add]
  congr 2
  field_simp
  ring

/-- C80 for force bias moves: detailed balance for the density `exp(-H)`, for every pair of
states, every choice of their forces and energies, every mobility, and meshes of any size. -/
theorem C80_force_bias (mobility vSystem : ℝ) (hm : 0 < mobility) (hv : 0 < vSystem) (hn : 0 < n)
    (xi xf di df : Comps m n) (Hi Hf : ℝ) :
    let var := 2 * mobility / (vSystem / (n : ℝ))
    Real.exp (-Hi) * attemptPdf (fun j k => -(mobility * di j k)) var (fun j k => xf j k - xi j k)
        * fbAccept mobility vSystem di df (fun j k => xf j k - xi j k) Hi Hf =
      Real.exp (-Hf) * attemptPdf (fun j k => -(mobility * df j k)) var (fun j k => xi j k - xf j k)
        * fbAccept mobility vSystem df di (fun j k => xi j k - xf j k) Hf Hi := by
  intro var
  have hn' : (0 : ℝ) < n := by exact_mod_cast hn
  have hvar : 0 < var := by simp only [var]; positivity
  have hrev : fbBias mobility vSystem df di (fun j k => xi j k - xf j k) =
      -fbBias mobility vSystem di df (fun j k => xf j k - xi j k) := by
    rw [bias_eq, bias_eq, ← sum_neg_distrib]
    refine sum_congr rfl fun j _ => ?_
    rw [← sum_neg_distrib]
    exact sum_congr rfl fun k _ => by ring
  have hb := C80_bias mobility vSystem hm hv hn di df (fun j k => xf j k - xi j k)
  simp only [neg_sub] at hb
  unfold fbAccept
  rw [hrev]
  have hinv : Real.exp (-fbBias mobility vSystem di df (fun j k => xf j k - xi j k) - (Hi - Hf)) =
      (Real.exp (fbBias mobility vSystem di df (fun j k => xf j k - xi j k) - (Hf - Hi)))⁻¹ := by
    rw [← Real.exp_neg]; congr 1; ring
  rw [hinv]
  refine min_balance _ _ _ (mul_pos (Real.exp_pos _) (attemptPdf_pos _ _ hvar _))
    (Real.exp_pos _) ?_
  simp only [var] at hb ⊢
  rw [hb]
  rw [show ∀ B : ℝ, B - (Hf - Hi) = B + -Hf + Hi from fun B => by ring, Real.exp_add, Real.exp_add]
  have : Real.exp (-Hi) * Real.exp Hi = 1 := by rw [← Real.exp_add]; simp
  generalize attemptPdf (fun j k => -(mobility * di j k)) _ _ = A
  generalize Real.exp (fbBias mobility vSystem di df _) = B
  linear_combination (-(Real.exp (-Hf)) * A * B) * this

/-- C80 for the other moves: the attempts of `RealMove` are symmetric. -/
theorem C80_real_move (sigma : ℝ) (hs : sigma ≠ 0) (xi xf : Comps m n) (Hi Hf : ℝ) :
    Real.exp (-Hi) * attemptPdf (fun _ _ => 0) (sigma ^ 2) (fun j k => xf j k - xi j k)
        * mcAccept Hi Hf =
      Real.exp (-Hf) * attemptPdf (fun _ _ => 0) (sigma ^ 2) (fun j k => xi j k - xf j k)
        * mcAccept Hf Hi := by
  have hsym : attemptPdf (fun _ _ => 0) (sigma ^ 2) (fun j k => xi j k - xf j k) =
      attemptPdf (fun _ _ => 0) (sigma ^ 2) (fun j k => xf j k - xi j k) := by
    refine prod_congr rfl fun j _ => prod_congr rfl fun k _ => ?_
    unfold normalPdf
    congr 3
    ring
  rw [hsym]
  unfold mcAccept
  have hinv : Real.exp (-(Hi - Hf)) = (Real.exp (-(Hf - Hi)))⁻¹ := by
    rw [← Real.exp_neg]; congr 1; ring
  rw [hinv]
  refine min_balance _ _ _ (mul_pos (Real.exp_pos _) (attemptPdf_pos _ _ (by positivity) _))
    (Real.exp_pos _) ?_
  rw [show -(Hf - Hi) = -Hf + Hi by ring, Real.exp_add]
  have : Real.exp (-Hi) * Real.exp Hi = 1 := by rw [← Real.exp_add]; simp
  linear_combination (-(Real.exp (-Hf)) * attemptPdf (fun _ _ => 0) (sigma ^ 2)
    (fun j k => xf j k - xi j k)) * this

/-- A move between two different states with different forces. -/
example : Real.exp (-1) * attemptPdf (m := 1) (n := 2) (fun j k => -(2 * (fun _ _ => 3) j k))
      (2 * 2 / (5 / (2 : ℕ))) (fun _ _ => 1 - 0)
      * fbAccept (m := 1) (n := 2) 2 5 (fun _ _ => 3) (fun _ _ => 4) (fun _ _ => 1 - 0) 1 2 =
    Real.exp (-2) * attemptPdf (m := 1) (n := 2) (fun j k => -(2 * (fun _ _ => 4) j k))
      (2 * 2 / (5 / (2 : ℕ))) (fun _ _ => 0 - 1)
      * fbAccept (m := 1) (n := 2) 2 5 (fun _ _ => 4) (fun _ _ => 3) (fun _ _ => 0 - 1) 2 1 :=
  C80_force_bias 2 5 (by norm_num) (by norm_num) (by norm_num) (fun _ _ => 0) (fun _ _ => 1)
    (fun _ _ => 3) (fun _ _ => 4) 1 2

end

end Verif.Fts
