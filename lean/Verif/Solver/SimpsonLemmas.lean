import Mathlib.Analysis.Calculus.Taylor
import Mathlib.Analysis.Calculus.IteratedDeriv.Lemmas
import Mathlib.MeasureTheory.Integral.IntervalIntegral.FundThmCalculus
import Verif.Tac

/-!
# Error of Simpson's rule
-/

set_option autoImplicit false
set_option linter.unusedSectionVars false

namespace Verif.Solver.Conv

open Set MeasureTheory intervalIntegral

/-- Integral of a cubic. -/
theorem cubic_integral (a h c0 c1 c2 c3 : ℝ) :
    ∫ x in a..a + 2 * h, (c0 + c1 * (x - a) + c2 * (x - a) ^ 2 + c3 * (x - a) ^ 3) =
      h / 3 * (c0 + 4 * (c0 + c1 * h + c2 * h ^ 2 + c3 * h ^ 3) +
        (c0 + c1 * (2 * h) + c2 * (2 * h) ^ 2 + c3 * (2 * h) ^ 3)) := by
  have hd : ∀ x ∈ uIcc a (a + 2 * h), HasDerivAt
      (fun x => c0 * (x - a) + c1 / 2 * (x - a) ^ 2 + c2 / 3 * (x - a) ^ 3 + c3 / 4 * (x - a) ^ 4)
      (c0 + c1 * (x - a) + c2 * (x - a) ^ 2 + c3 * (x - a) ^ 3) x := by
    intro x _
    have h1 : HasDerivAt (fun x : ℝ => x - a) 1 x := (hasDerivAt_id x).sub_const a
    have := (((h1.const_mul c0).fun_add ((h1.fun_pow 2).const_mul (c1 / 2))).fun_add
      ((h1.fun_pow 3).const_mul (c2 / 3))).fun_add ((h1.fun_pow 4).const_mul (c3 / 4))
    refine this.congr_deriv ?_
    norm_num
    ring
  rw [integral_eq_sub_of_hasDerivAt hd (by
    apply Continuous.intervalIntegrable; fun_prop)]
  ring

theorem taylor_cubic {f : ℝ → ℝ} {a b M : ℝ} (hab : a < b) (hf : ContDiff ℝ 4 f)
    (hM : ∀ s ∈ Icc a b, |iteratedDeriv 4 f s| ≤ M) : ∃ c0 c1 c2 c3 : ℝ, ∀ x ∈ Icc a b,
      |f x - (c0 + c1 * (x - a) + c2 * (x - a) ^ 2 + c3 * (x - a) ^ 3)| ≤ M * (x - a) ^ 4 / 6 := by
  have hu := uniqueDiffOn_Icc hab
  refine ⟨f a, iteratedDerivWithin 1 f (Icc a b) a, iteratedDerivWithin 2 f (Icc a b) a / 2,
    iteratedDerivWithin 3 f (Icc a b) a / 6, fun x hx => ?_⟩
  have := taylor_mean_remainder_bound (f := f) (n := 3) (C := M) hab.le
    (by exact_mod_cast hf.contDiffOn) hx (fun y hy => by
      rw [iteratedDerivWithin_eq_iteratedDeriv hu (by exact_mod_cast hf.contDiffAt) hy]
      exact hM y hy)
  rw [taylor_within_apply] at this
  simp only [Finset.sum_range_succ, Finset.sum_range_zero, smul_eq_mul, Real.norm_eq_abs,
    iteratedDerivWithin_zero, Nat.factorial] at this
  refine (le_of_eq (congrArg abs ?_)).trans (this.trans (le_of_eq ?_))
  · norm_num
    ring
  · norm_num

/-- One panel. -/
theorem simpson_panel {f : ℝ → ℝ} {a h M : ℝ} (hh : 0 ≤ h) (hf : ContDiff ℝ 4 f)
    (hM : ∀ s ∈ Icc a (a + 2 * h), |iteratedDeriv 4 f s| ≤ M) :
    |(∫ x in a..a + 2 * h, f x) - h / 3 * (f a + 4 * f (a + h) + f (a + 2 * h))| ≤
      11 * M * h ^ 5 := by
  rcases hh.eq_or_lt with rfl | hpos
  · simp
  have hab : a < a + 2 * h := by linarith
  obtain ⟨c0, c1, c2, c3, hT⟩ := taylor_cubic hab hf hM
  have hM0 : 0 ≤ M := (abs_nonneg _).trans (hM a ⟨le_rfl, hab.le⟩)
  set P : ℝ → ℝ := fun x => c0 + c1 * (x - a) + c2 * (x - a) ^ 2 + c3 * (x - a) ^ 3 with hP
  set B := M * (2 * h) ^ 4 / 6 with hB
  have hT' : ∀ x ∈ Icc a (a + 2 * h), |f x - P x| ≤ B := by
    intro x hx
    refine (hT x hx).trans ?_
    have h1 : 0 ≤ x - a := by linarith [hx.1]
    have h2 : x - a ≤ 2 * h := by linarith [hx.2]
    have := pow_le_pow_left₀ h1 h2 4
    rw [hB]
    have := mul_le_mul_of_nonneg_left this hM0
    linarith
  have hfc : IntervalIntegrable f volume a (a + 2 * h) := hf.continuous.intervalIntegrable _ _
  have hPc : IntervalIntegrable P volume a (a + 2 * h) := by
    apply Continuous.intervalIntegrable; rw [hP]; fun_prop
  have hI : |∫ x in a..a + 2 * h, (f x - P x)| ≤ B * (2 * h) := by
    have := norm_integral_le_of_norm_le_const (a := a) (b := a + 2 * h) (f := fun x => f x - P x)
      (C := B) (fun x hx => by
        rw [uIoc_of_le hab.le] at hx
        exact hT' x ⟨hx.1.le, hx.2⟩)
    rwa [Real.norm_eq_abs, show |a + 2 * h - a| = 2 * h by
      rw [add_sub_cancel_left, abs_of_pos]; linarith] at this
  rw [integral_sub hfc hPc, cubic_integral] at hI
  have ha := hT' a ⟨le_rfl, hab.le⟩
  have hm := hT' (a + h) ⟨by linarith, by linarith⟩
  have hb := hT' (a + 2 * h) ⟨by linarith, le_rfl⟩
  have e0 : P a = c0 := by simp [hP]
  have e1 : P (a + h) = c0 + c1 * h + c2 * h ^ 2 + c3 * h ^ 3 := by simp [hP]
  have e2 : P (a + 2 * h) = c0 + c1 * (2 * h) + c2 * (2 * h) ^ 2 + c3 * (2 * h) ^ 3 := by simp [hP]
  rw [← e1, ← e2] at hI
  rw [e0] at ha
  have hB' : B * (2 * h) * 2 ≤ 11 * M * h ^ 5 := by
    have : 0 ≤ M * h ^ 5 := by positivity
    rw [hB]; ring_nf; ring_nf at this; linarith
  rw [abs_le] at *
  have hh3 : 0 < h / 3 := by positivity
  have s1 : h / 3 * ((f a - c0) + 4 * (f (a + h) - P (a + h)) + (f (a + 2 * h) - P (a + 2 * h))) ≤
      h / 3 * (6 * B) := mul_le_mul_of_nonneg_left (by linarith) hh3.le
  have s2 : h / 3 * (-(6 * B)) ≤
      h / 3 * ((f a - c0) + 4 * (f (a + h) - P (a + h)) + (f (a + 2 * h) - P (a + 2 * h))) :=
    mul_le_mul_of_nonneg_left (by linarith) hh3.le
  constructor
  · nlinarith
  · nlinarith

/-- Composite rule with `2m` intervals. -/
theorem simpson_composite {f : ℝ → ℝ} {h M : ℝ} (hh : 0 ≤ h) (hf : ContDiff ℝ 4 f) (a : ℝ) :
    ∀ m : Nat, (∀ s ∈ Icc a (a + 2 * m * h), |iteratedDeriv 4 f s| ≤ M) →
    |(∫ x in a..a + 2 * m * h, f x) - ∑ p ∈ Finset.range m, h / 3 *
        (f (a + (2 * p) * h) + 4 * f (a + (2 * p + 1) * h) + f (a + (2 * p + 2) * h))| ≤
      m * (11 * M * h ^ 5)
  | 0, _ => by simp
  | m + 1, hM => by
    have ih := simpson_composite hh hf a m (fun s hs => hM s ⟨hs.1, hs.2.trans (by
      push_cast; nlinarith)⟩)
    have hp := simpson_panel (a := a + 2 * m * h) hh hf (M := M) (fun s hs => hM s
      ⟨le_trans (by have : 0 ≤ 2 * (m : ℝ) * h := by positivity
                    linarith) hs.1, hs.2.trans (by push_cast; linarith)⟩)
    have hI : ∀ x y : ℝ, IntervalIntegrable f volume x y := fun x y =>
      hf.continuous.intervalIntegrable _ _
    rw [Finset.sum_range_succ]
    have e1 : a + 2 * ((m + 1 : Nat) : ℝ) * h = a + 2 * m * h + 2 * h := by push_cast; ring
    rw [e1, ← integral_add_adjacent_intervals (hI a (a + 2 * m * h)) (hI _ _)]
    have e2 : a + (2 * (m : ℝ) + 1) * h = a + 2 * m * h + h := by ring
    have e3 : a + (2 * (m : ℝ) + 2) * h = a + 2 * m * h + 2 * h := by ring
    rw [e2, e3]
    push_cast
    rw [abs_le] at *
    constructor <;> linarith [ih.1, ih.2, hp.1, hp.2]

/-- Fourth order accuracy of the composite rule on `[0, L]`. -/
theorem simpson_order {f : ℝ → ℝ} (L : ℝ) (hL : 0 ≤ L) (hf : ContDiff ℝ 4 f) :
    ∃ C, 0 ≤ C ∧ ∀ m : Nat, 1 ≤ m →
      |(∫ x in 0..L, f x) - ∑ p ∈ Finset.range m, L / (2 * m) / 3 *
        (f ((2 * p) * (L / (2 * m))) + 4 * f ((2 * p + 1) * (L / (2 * m))) +
          f ((2 * p + 2) * (L / (2 * m))))| ≤ C / m ^ 4 := by
  have hc : Continuous (iteratedDeriv 4 f) := hf.continuous_iteratedDeriv 4 le_rfl
  obtain ⟨M, hM⟩ := (isCompact_Icc (a := (0 : ℝ)) (b := L)).exists_bound_of_continuousOn
    hc.continuousOn
  have hM0 : 0 ≤ M := (norm_nonneg _).trans (hM 0 ⟨le_rfl, hL⟩)
  refine ⟨11 * M * L ^ 5 / 32, by positivity, fun m hm => ?_⟩
  have hm0 : (0 : ℝ) < m := by exact_mod_cast hm
  have e : 0 + 2 * (m : ℝ) * (L / (2 * m)) = L := by field_simp; ring
  have := simpson_composite (f := f) (h := L / (2 * m)) (M := M) (by positivity) hf 0 m
    (fun s hs => hM s (by rwa [e] at hs))
  rw [e] at this
  simp only [zero_add] at this
  refine this.trans (le_of_eq ?_)
  field_simp
  ring

end Verif.Solver.Conv
