import Verif.Tac
import Mathlib.Probability.Distributions.Gaussian.Real
import Mathlib.MeasureTheory.Integral.Pi

/-!
# Gaussian integrals over fields

Helper lemmas for C111.
-/

set_option autoImplicit false

open MeasureTheory ProbabilityTheory

namespace Verif.Ana

/-- Gaussian weight. -/
noncomputable def gw (a m x : ℝ) : ℝ := Real.exp (-a * (x - m) ^ 2)

/-- Variance. -/
noncomputable def gv (a : ℝ) : NNReal := (1 / (2 * a)).toNNReal

theorem gv_coe {a : ℝ} (ha : 0 < a) : ((gv a : NNReal) : ℝ) = 1 / (2 * a) :=
  Real.coe_toNNReal _ (by positivity)

theorem gv_ne {a : ℝ} (ha : 0 < a) : gv a ≠ 0 := by
  intro h
  have h1 := gv_coe ha
  rw [h, NNReal.coe_zero] at h1
  have : (0 : ℝ) < 1 / (2 * a) := by positivity
  linarith

theorem gw_pdf {a : ℝ} (ha : 0 < a) (m x : ℝ) :
    gw a m x = Real.sqrt (Real.pi / a) * gaussianPDFReal m (gv a) x := by
  unfold gw gaussianPDFReal
  rw [gv_coe ha, show 2 * Real.pi * (1 / (2 * a)) = Real.pi / a by field_simp, ← mul_assoc,
    mul_inv_cancel₀ (by positivity), one_mul]
  congr 1
  field_simp

theorem gw_integral {a : ℝ} (ha : 0 < a) (m : ℝ) (f : ℝ → ℝ) :
    ∫ x, f x * gw a m x = Real.sqrt (Real.pi / a) * ∫ x, f x ∂(gaussianReal m (gv a)) := by
  rw [integral_gaussianReal_eq_integral_smul (gv_ne ha), ← integral_const_mul]
  refine integral_congr_ae (ae_of_all _ fun x => ?_)
  simp only [smul_eq_mul]
  rw [gw_pdf ha]
  ring

theorem gw_zero {a : ℝ} (ha : 0 < a) (m : ℝ) : ∫ x, gw a m x = Real.sqrt (Real.pi / a) := by
  have := gw_integral ha m (fun _ => 1)
  simpa using this

theorem gw_one {a : ℝ} (ha : 0 < a) (m : ℝ) : ∫ x, x * gw a m x = Real.sqrt (Real.pi / a) * m := by
  rw [gw_integral ha m (fun x => x), integral_id_gaussianReal]

theorem gw_two {a : ℝ} (ha : 0 < a) (m : ℝ) :
    ∫ x, x * x * gw a m x = Real.sqrt (Real.pi / a) * (m * m + 1 / (2 * a)) := by
  rw [gw_integral ha m (fun x => x * x)]
  congr 1
  have h := variance_id_gaussianReal (μ := m) (v := gv a)
  rw [variance_eq_sub (memLp_id_gaussianReal 2)] at h
  simp only [gv_coe ha, id, Pi.pow_apply, integral_id_gaussianReal] at h
  have e : ∀ x : ℝ, x * x = x ^ 2 := fun x => (sq x).symm
  simp only [e]
  linarith

theorem gw_intble {a : ℝ} (ha : 0 < a) (m : ℝ) (f : ℝ → ℝ) (hf : Integrable f (gaussianReal m (gv a))) :
    Integrable (fun x => f x * gw a m x) := by
  rw [gaussianReal_of_var_ne_zero _ (gv_ne ha),
    integrable_withDensity_iff_integrable_smul' (measurable_gaussianPDF _ _) (ae_of_all _ fun _ => gaussianPDF_lt_top)] at hf
  refine (hf.const_mul (Real.sqrt (Real.pi / a))).congr (ae_of_all _ fun x => ?_)
  simp only [toReal_gaussianPDF, smul_eq_mul]
  rw [gw_pdf ha]
  ring

theorem gw_int0 {a : ℝ} (ha : 0 < a) (m : ℝ) : Integrable (fun x => gw a m x) := by
  have := gw_intble ha m (fun _ => 1) (integrable_const _)
  simpa using this

theorem gw_int1 {a : ℝ} (ha : 0 < a) (m : ℝ) : Integrable (fun x => x * gw a m x) :=
  gw_intble ha m (fun x => x) ((memLp_id_gaussianReal 1).integrable (by simp))

theorem gw_int2 {a : ℝ} (ha : 0 < a) (m : ℝ) : Integrable (fun x => x * x * gw a m x) :=
  gw_intble ha m (fun x => x * x) (by
    have := (memLp_id_gaussianReal (μ := m) (v := gv a) 2).integrable_sq
    simpa [sq] using this)

variable {M : ℕ}

/-- Weight of a field. -/
noncomputable def gW (a : ℝ) (m W : Fin M → ℝ) : ℝ := ∏ r, gw a (m r) (W r)

/-- Factor of grid point `i` in the product `W r * W s * weight`. -/
noncomputable def fac (a : ℝ) (m : Fin M → ℝ) (r s i : Fin M) (x : ℝ) : ℝ :=
  (if i = r then x else 1) * (if i = s then x else 1) * gw a (m i) x

theorem fac_prod (a : ℝ) (m W : Fin M → ℝ) (r s : Fin M) : ∏ i, fac a m r s i (W i) = W r * W s * gW a m W := by
  unfold fac gW
  rw [Finset.prod_mul_distrib, Finset.prod_mul_distrib]
  simp

theorem fac_int {a : ℝ} (ha : 0 < a) (m : Fin M → ℝ) (r s i : Fin M) : Integrable (fac a m r s i) := by
  unfold fac
  by_cases h1 : i = r <;> by_cases h2 : i = s <;> simp only [h1, h2, if_true, if_false, one_mul, mul_one]
  · subst h1; subst h2; simpa using gw_int2 ha (m i)
  · subst h1; simpa [h2] using gw_int1 ha (m i)
  · subst h2; simpa [h1] using gw_int1 ha (m i)
  · simpa [h1,h2] using gw_int0 ha (m i)

theorem fac_val {a : ℝ} (ha : 0 < a) (m : Fin M → ℝ) (r s i : Fin M) :
    ∫ x, fac a m r s i x = Real.sqrt (Real.pi / a) *
      ((if i = r then m r else 1) * (if i = s then m s else 1) + if i = r ∧ r = s then 1 / (2 * a) else 0) := by
  unfold fac
  by_cases h1 : i = r
  · subst h1
    by_cases h2 : i = s
    · subst h2; simp only [if_true, and_self]; exact gw_two ha _
    · simp only [if_true, h2, if_false, mul_one, and_false, add_zero]; exact gw_one ha _
  · by_cases h2 : i = s
    · subst h2; simp only [if_true, h1, if_false, one_mul, false_and, add_zero]; exact gw_one ha _
    · simp only [h1, h2, if_false, one_mul, mul_one, false_and, add_zero]; exact gw_zero ha _

theorem gW_int0 {a : ℝ} (ha : 0 < a) (m : Fin M → ℝ) : Integrable (fun W => gW a m W) :=
  Integrable.fintype_prod (μ := fun _ => volume) fun i => gw_int0 ha (m i)

theorem gW_int {a : ℝ} (ha : 0 < a) (m : Fin M → ℝ) (r s : Fin M) : Integrable (fun W => W r * W s * gW a m W) := by
  simp only [← fac_prod]
  exact Integrable.fintype_prod (μ := fun _ => volume) fun i => fac_int ha m r s i

theorem gW_zero {a : ℝ} (ha : 0 < a) (m : Fin M → ℝ) : ∫ W, gW a m W = Real.sqrt (Real.pi / a) ^ M := by
  unfold gW
  rw [integral_fintype_prod_volume_eq_prod (fun i x => gw a (m i) x)]
  simp [gw_zero ha]

theorem gW_two {a : ℝ} (ha : 0 < a) (m : Fin M → ℝ) (r s : Fin M) :
    ∫ W, W r * W s * gW a m W =
      Real.sqrt (Real.pi / a) ^ M * (m r * m s + if r = s then 1 / (2 * a) else 0) := by
  simp only [← fac_prod]
  rw [integral_fintype_prod_volume_eq_prod (fun i x => fac a m r s i x)]
  simp only [fac_val ha]
  rw [Finset.prod_mul_distrib, Finset.prod_const, Finset.card_univ, Fintype.card_fin]
  congr 1
  by_cases h : r = s
  · subst h
    simp only [and_true, if_true]
    rw [Finset.prod_eq_single r]
    · simp
    · intro b _ hb; simp [hb]
    · simp
  · simp only [h, and_false, if_false, add_zero]
    rw [Finset.prod_mul_distrib]
    simp

/-- Second moment of a linear function of the field. -/
theorem gW_lin {a : ℝ} (ha : 0 < a) (m c : Fin M → ℝ) :
    ∫ W, (∑ r, c r * W r) ^ 2 * gW a m W =
      Real.sqrt (Real.pi / a) ^ M * ((∑ r, c r * m r) ^ 2 + (∑ r, c r ^ 2) / (2 * a)) ∧
    Integrable (fun W => (∑ r, c r * W r) ^ 2 * gW a m W) := by
  have e : ∀ W : Fin M → ℝ, (∑ r, c r * W r) ^ 2 * gW a m W = ∑ r, ∑ s, c r * c s * (W r * W s * gW a m W) := by
    intro W
    rw [sq, Finset.sum_mul_sum, Finset.sum_mul]
    refine Finset.sum_congr rfl fun r _ => ?_
    rw [Finset.sum_mul]
    refine Finset.sum_congr rfl fun s _ => ?_
    ring
  simp only [e]
  constructor
  · rw [integral_finsetSum _ fun r _ => integrable_finsetSum _ fun s _ => (gW_int ha m r s).const_mul _]
    have e2 : ∀ r, ∫ W, ∑ s, c r * c s * (W r * W s * gW a m W) = Real.sqrt (Real.pi / a) ^ M *
        ((c r * m r) * (∑ s, c s * m s) + c r ^ 2 * (1 / (2 * a))) := by
      intro r
      rw [integral_finsetSum _ fun s _ => (gW_int ha m r s).const_mul _]
      simp only [integral_const_mul, gW_two ha]
      rw [Finset.mul_sum, mul_add, Finset.mul_sum]
      have : ∀ s, c r * c s * (Real.sqrt (Real.pi / a) ^ M * (m r * m s + if r = s then 1 / (2 * a) else 0)) =
          Real.sqrt (Real.pi / a) ^ M * (c r * m r * (c s * m s)) + if r = s then Real.sqrt (Real.pi / a) ^ M * (c r ^ 2 * (1 / (2 * a))) else 0 := by
        intro s
        split
        · rename_i h; subst h; ring
        · ring
      simp only [this]
      rw [Finset.sum_add_distrib]
      simp
    simp only [e2]
    rw [← Finset.mul_sum, Finset.sum_add_distrib, ← Finset.sum_mul, ← Finset.sum_mul]
    ring
  · exact integrable_finsetSum _ fun r _ => integrable_finsetSum _ fun s _ => (gW_int ha m r s).const_mul _

end Verif.Ana
