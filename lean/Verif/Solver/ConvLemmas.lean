import Mathlib.Analysis.SpecialFunctions.Exponential
import Mathlib.Analysis.Normed.Operator.Mul
import Mathlib.Tactic.Module
import Mathlib.Tactic.NoncommRing
import Verif.Tac

/-!
# Order of the split step

Operators in a Banach algebra: Taylor coefficients up to fourth order of the symmetrically split step
with Richardson extrapolation, and accumulation of errors.
-/

set_option autoImplicit false
set_option linter.unusedSectionVars false

namespace Verif.Solver.Conv

open Asymptotics Filter Topology NormedSpace

variable {A : Type} [NormedRing A] [NormedAlgebra ℝ A] [CompleteSpace A]

/-- Taylor coefficients up to fourth order. -/
structure J (A : Type) where
  c0 : A
  c1 : A
  c2 : A
  c3 : A
  c4 : A

/-- The polynomial with given coefficients. -/
def J.poly (a : J A) (h : ℝ) : A :=
  a.c0 + h • a.c1 + h ^ 2 • a.c2 + h ^ 3 • a.c3 + h ^ 4 • a.c4

/-- Product truncated after the fourth order. -/
def J.mul (a b : J A) : J A where
  c0 := a.c0 * b.c0
  c1 := a.c0 * b.c1 + a.c1 * b.c0
  c2 := a.c0 * b.c2 + a.c1 * b.c1 + a.c2 * b.c0
  c3 := a.c0 * b.c3 + a.c1 * b.c2 + a.c2 * b.c1 + a.c3 * b.c0
  c4 := a.c0 * b.c4 + a.c1 * b.c3 + a.c2 * b.c2 + a.c3 * b.c1 + a.c4 * b.c0

/-- The function has the given Taylor coefficients. -/
def Jet (f : ℝ → A) (a : J A) : Prop :=
  (fun h => f h - a.poly h) =O[𝓝 0] (fun h : ℝ => h ^ 5)

theorem pow_big (k : Nat) (hk : 5 ≤ k) (x : A) :
    (fun h : ℝ => h ^ k • x) =O[𝓝 0] (fun h : ℝ => h ^ 5) := by
  have h1 : (fun h : ℝ => h ^ k) =O[𝓝 0] (fun h : ℝ => h ^ 5) := by
    obtain ⟨j, rfl⟩ := Nat.exists_eq_add_of_le hk
    have : (fun h : ℝ => h ^ j) =O[𝓝 0] (fun _ : ℝ => (1 : ℝ)) :=
      (continuous_pow j).continuousAt.isBigO_one ℝ
    simpa [pow_add] using (isBigO_refl (fun h : ℝ => h ^ 5) (𝓝 0)).mul this
  have h2 : (fun _ : ℝ => x) =O[𝓝 0] (fun _ : ℝ => (1 : ℝ)) := isBigO_const_const _ one_ne_zero _
  simpa using h1.smul h2

theorem poly_continuous (a : J A) : Continuous a.poly := by
  unfold J.poly
  fun_prop

theorem Jet.bounded {f : ℝ → A} {a : J A} (hf : Jet f a) :
    f =O[𝓝 0] (fun _ : ℝ => (1 : ℝ)) := by
  have h1 : (fun h : ℝ => h ^ 5) =O[𝓝 0] (fun _ : ℝ => (1 : ℝ)) :=
    (continuous_pow 5).continuousAt.isBigO_one ℝ
  have h2 : a.poly =O[𝓝 0] (fun _ : ℝ => (1 : ℝ)) :=
    (poly_continuous a).continuousAt.isBigO_one ℝ
  simpa using (hf.trans h1).add h2

theorem Jet.mul {f g : ℝ → A} {a b : J A} (hf : Jet f a) (hg : Jet g b) :
    Jet (fun h => f h * g h) (a.mul b) := by
  have ha : a.poly =O[𝓝 0] (fun _ : ℝ => (1 : ℝ)) :=
    (poly_continuous a).continuousAt.isBigO_one ℝ
  have h1 : (fun h => (f h - a.poly h) * g h) =O[𝓝 0] (fun h : ℝ => h ^ 5) := by
    simpa using IsBigO.mul hf hg.bounded
  have h2 : (fun h => a.poly h * (g h - b.poly h)) =O[𝓝 0] (fun h : ℝ => h ^ 5) := by
    simpa using IsBigO.mul ha hg
  have h3 := ((pow_big 5 le_rfl (a.c1 * b.c4 + a.c2 * b.c3 + a.c3 * b.c2 + a.c4 * b.c1)).add
    (pow_big 6 (by norm_num) (a.c2 * b.c4 + a.c3 * b.c3 + a.c4 * b.c2))).add
    ((pow_big 7 (by norm_num) (a.c3 * b.c4 + a.c4 * b.c3)).add (pow_big 8 (by norm_num) (a.c4 * b.c4)))
  refine ((h1.add h2).add h3).congr_left fun h => ?_
  have e : a.poly h * b.poly h = (a.mul b).poly h +
      (h ^ 5 • (a.c1 * b.c4 + a.c2 * b.c3 + a.c3 * b.c2 + a.c4 * b.c1) +
        h ^ 6 • (a.c2 * b.c4 + a.c3 * b.c3 + a.c4 * b.c2) +
        (h ^ 7 • (a.c3 * b.c4 + a.c4 * b.c3) + h ^ 8 • (a.c4 * b.c4))) := by
    simp only [J.poly, J.mul, mul_add, add_mul, smul_mul_assoc, mul_smul_comm]
    module
  rw [sub_mul, mul_sub, e]
  abel

theorem Jet.sub {f g : ℝ → A} {a b : J A} (hf : Jet f a) (hg : Jet g b) :
    Jet (fun h => f h - g h) ⟨a.c0 - b.c0, a.c1 - b.c1, a.c2 - b.c2, a.c3 - b.c3, a.c4 - b.c4⟩ := by
  refine (IsBigO.sub hf hg).congr_left fun h => ?_
  simp only [J.poly]
  module

theorem Jet.smul {f : ℝ → A} {a : J A} (hf : Jet f a) (c : ℝ) :
    Jet (fun h => c • f h) ⟨c • a.c0, c • a.c1, c • a.c2, c • a.c3, c • a.c4⟩ := by
  refine (IsBigO.const_smul_left hf c).congr_left fun h => ?_
  show c • (f h - a.poly h) = _
  simp only [J.poly]
  module

theorem Jet.congr {f g : ℝ → A} {a b : J A} (hf : Jet f a) (e : ∀ h, f h = g h) (e' : a = b) :
    Jet g b := by
  rw [← funext e, ← e']; exact hf

/-- Coefficients of an exponential. -/
noncomputable def J.exp (x : A) : J A :=
  ⟨1, x, (1 / 2 : ℝ) • x ^ 2, (1 / 6 : ℝ) • x ^ 3, (1 / 24 : ℝ) • x ^ 4⟩

theorem jet_exp (x : A) : Jet (fun h => exp (h • x)) (J.exp x) := by
  have h1 := (exp_hasFPowerSeriesAt_zero (𝕂 := ℝ) (𝔸 := A)).isBigO_sub_partialSum_pow 5
  have h2 : Tendsto (fun h : ℝ => h • x) (𝓝 0) (𝓝 0) := by
    have : Continuous (fun h : ℝ => h • x) := by fun_prop
    simpa using this.tendsto 0
  have h3 := h1.comp_tendsto h2
  refine (h3.trans ?_).congr_left fun h => ?_
  · refine IsBigO.of_bound (‖x‖ ^ 5) (Eventually.of_forall fun h => ?_)
    simp [norm_smul, mul_pow, mul_comm]
  · simp only [Function.comp, zero_add, J.poly, J.exp, FormalMultilinearSeries.partialSum,
      expSeries_apply_eq, Finset.sum_range_succ, Finset.sum_range_zero, smul_pow, smul_smul]
    simp only [Nat.factorial]
    norm_num
    module

/-- Two coinciding lists of Taylor coefficients. -/
theorem Jet.diff {f g : ℝ → A} {a : J A} (hf : Jet f a) (hg : Jet g a) :
    (fun h => f h - g h) =O[𝓝 0] (fun h : ℝ => h ^ 5) := by
  refine (IsBigO.sub hf hg).congr_left fun h => ?_
  abel

/-- The split step with Richardson extrapolation. -/
noncomputable def richStep (x y : A) (h : ℝ) : A :=
  (1 / 3 : ℝ) • ((4 : ℝ) • (exp (h • (1 / 4 : ℝ) • x) * (exp (h • (1 / 2 : ℝ) • y) *
    (exp (h • (1 / 2 : ℝ) • x) * (exp (h • (1 / 2 : ℝ) • y) * exp (h • (1 / 4 : ℝ) • x))))) -
    exp (h • (1 / 2 : ℝ) • x) * (exp (h • y) * exp (h • (1 / 2 : ℝ) • x)))

theorem jet_richStep (x y : A) : Jet (richStep x y) (J.exp (x + y)) := by
  have hx4 := jet_exp ((1 / 4 : ℝ) • x)
  have hx2 := jet_exp ((1 / 2 : ℝ) • x)
  have hy2 := jet_exp ((1 / 2 : ℝ) • y)
  have hy := jet_exp y
  refine (((hx4.mul (hy2.mul (hx2.mul (hy2.mul hx4)))).smul 4).sub (hx2.mul (hy.mul hx2))).smul
    (1 / 3) |>.congr (fun _ => rfl) ?_
  simp only [J.mul, J.exp, pow_succ, pow_zero, one_mul, mul_one, mul_add, add_mul,
    smul_mul_assoc, mul_smul_comm, smul_smul, ← mul_assoc, J.mk.injEq]
  refine ⟨?_, ?_, ?_, ?_, ?_⟩ <;> module

theorem exp_cont : Continuous (exp : A → A) := by
  let _ := NormedAlgebra.restrictScalars ℚ ℝ A
  exact exp_continuous

theorem exp_nat (n : Nat) (x : A) : exp (n • x) = exp x ^ n := by
  let _ := NormedAlgebra.restrictScalars ℚ ℝ A
  exact exp_nsmul n x

theorem richStep_continuous (x y : A) : Continuous (richStep x y) := by
  have hc : ∀ z : A, Continuous (fun h : ℝ => exp (h • z)) := fun z =>
    (exp_cont (A := A)).comp (by fun_prop)
  unfold richStep
  have h1 := hc ((1 / 4 : ℝ) • x)
  have h2 := hc ((1 / 2 : ℝ) • x)
  have h3 := hc ((1 / 2 : ℝ) • y)
  have h4 := hc y
  fun_prop

/-- Local error of the step, uniform on a bounded interval of step sizes. -/
theorem richStep_local (x y : A) (L : ℝ) : ∃ C, 0 ≤ C ∧ ∀ h, 0 ≤ h → h ≤ L →
    ‖richStep x y h - exp (h • (x + y))‖ ≤ C * h ^ 5 := by
  obtain ⟨c, hc⟩ := ((jet_richStep x y).diff (jet_exp (x + y))).bound
  obtain ⟨δ, hδ, hb⟩ := Metric.eventually_nhds_iff.1 hc
  have hcont : Continuous (fun h => richStep x y h - exp (h • (x + y))) :=
    (richStep_continuous x y).sub ((exp_cont (A := A)).comp (by fun_prop))
  obtain ⟨M, hM⟩ := (isCompact_Icc (a := (0 : ℝ)) (b := L)).exists_bound_of_continuousOn
    hcont.continuousOn
  have hd5 : 0 < δ ^ 5 := by positivity
  refine ⟨|c| + |M| / δ ^ 5, by positivity, fun h h0 hL => ?_⟩
  have h5 : 0 ≤ h ^ 5 := by positivity
  by_cases hlt : h < δ
  · have h1 := hb (y := h) (by simpa [abs_of_nonneg h0] using hlt)
    rw [Real.norm_eq_abs, abs_of_nonneg h5] at h1
    have h2 : c * h ^ 5 ≤ |c| * h ^ 5 := mul_le_mul_of_nonneg_right (le_abs_self c) h5
    have h3 : 0 ≤ |M| / δ ^ 5 * h ^ 5 := by positivity
    nlinarith
  · have h1 := hM h ⟨h0, hL⟩
    have h2 : δ ^ 5 ≤ h ^ 5 := pow_le_pow_left₀ hδ.le (not_lt.1 hlt) 5
    have h3 : |M| ≤ |M| / δ ^ 5 * h ^ 5 := by
      rw [div_mul_eq_mul_div, le_div_iff₀ hd5]
      exact mul_le_mul_of_nonneg_left h2 (abs_nonneg M)
    have h4 : 0 ≤ |c| * h ^ 5 := by positivity
    have := le_abs_self M
    nlinarith

theorem norm_exp_le (x : A) (h1 : ‖(1 : A)‖ ≤ 1) : ‖exp x‖ ≤ Real.exp ‖x‖ := by
  have hs := exp_series_hasSum_exp' (𝕂 := ℝ) x
  have hr := exp_series_hasSum_exp' (𝕂 := ℝ) ‖x‖
  rw [← Real.exp_eq_exp_ℝ] at hr
  refine hs.norm_le_of_bounded hr fun n => ?_
  rw [norm_smul, smul_eq_mul]
  have : ‖x ^ n‖ ≤ ‖x‖ ^ n := by
    cases n with
    | zero => simpa using h1
    | succ n => exact norm_pow_le' x (Nat.succ_pos n)
  have h2 : ‖((n.factorial : ℝ)⁻¹)‖ = (n.factorial : ℝ)⁻¹ := by
    rw [Real.norm_eq_abs, abs_of_nonneg (by positivity)]
  rw [h2]
  exact mul_le_mul_of_nonneg_left this (by positivity)

/-- Accumulation of errors. -/
theorem pow_sub_pow (S E : A) (M ε : ℝ) (h1 : ‖(1 : A)‖ ≤ 1) (hS : ‖S‖ ≤ M) (hE : ‖E‖ ≤ M)
    (hM : 1 ≤ M) (hε : ‖S - E‖ ≤ ε) : ∀ j : Nat, ‖S ^ j - E ^ j‖ ≤ j * ε * M ^ j
  | 0 => by simp
  | j + 1 => by
    have ih := pow_sub_pow S E M ε h1 hS hE hM hε j
    have e : S ^ (j + 1) - E ^ (j + 1) = S * (S ^ j - E ^ j) + (S - E) * E ^ j := by
      rw [pow_succ', pow_succ']; noncomm_ring
    have hE' : ‖E ^ j‖ ≤ M ^ j := by
      cases j with
      | zero => simpa using h1
      | succ j => exact (norm_pow_le' E (Nat.succ_pos j)).trans (pow_le_pow_left₀ (norm_nonneg _) hE _)
    have hM0 : 0 ≤ M := by linarith
    have hε0 : 0 ≤ ε := (norm_nonneg _).trans hε
    have h2 : ‖S * (S ^ j - E ^ j)‖ ≤ M * (j * ε * M ^ j) :=
      (norm_mul_le _ _).trans (mul_le_mul hS ih (norm_nonneg _) hM0)
    have h3 : ‖(S - E) * E ^ j‖ ≤ ε * M ^ j :=
      (norm_mul_le _ _).trans (mul_le_mul hε hE' (norm_nonneg _) hε0)
    have h4 : ε * M ^ j ≤ ε * M ^ (j + 1) :=
      mul_le_mul_of_nonneg_left (pow_le_pow_right₀ hM (Nat.le_succ j)) hε0
    rw [e]
    refine (norm_add_le _ _).trans ?_
    push_cast
    have : (j + 1 : ℝ) * ε * M ^ (j + 1) = M * (j * ε * M ^ j) + ε * M ^ (j + 1) := by ring
    linarith

/-- Fourth order convergence: the error after any number `j` of `n` steps of size `L/n`. -/
theorem richStep_global (x y : A) (h1 : ‖(1 : A)‖ ≤ 1) (L : ℝ) (hL : 0 ≤ L) :
    ∃ C, 0 ≤ C ∧ ∀ n : Nat, 1 ≤ n → ∀ j : Nat, j ≤ n →
      ‖richStep x y (L / n) ^ j - exp ((j * (L / n)) • (x + y))‖ ≤ C / n ^ 4 := by
  obtain ⟨C, hC, hloc⟩ := richStep_local x y L
  set B := ‖x + y‖ + C * L ^ 4 with hB
  have hB0 : 0 ≤ B := by positivity
  refine ⟨C * L ^ 5 * Real.exp (B * L), by positivity, fun n hn j hj => ?_⟩
  have hn0 : (0 : ℝ) < n := by exact_mod_cast hn
  have hn1 : (1 : ℝ) ≤ n := by exact_mod_cast hn
  set h := L / n with hh
  have hh0 : 0 ≤ h := by positivity
  have hhL : h ≤ L := div_le_self hL hn1
  have hl := hloc h hh0 hhL
  have hE : ‖exp (h • (x + y))‖ ≤ Real.exp (h * ‖x + y‖) := by
    have := norm_exp_le (h • (x + y)) h1
    rwa [norm_smul, Real.norm_eq_abs, abs_of_nonneg hh0] at this
  have hch : C * h ^ 5 ≤ h * (C * L ^ 4) := by
    have : h ^ 4 ≤ L ^ 4 := pow_le_pow_left₀ hh0 hhL 4
    have h2 : C * h * h ^ 4 ≤ C * h * L ^ 4 := mul_le_mul_of_nonneg_left this (by positivity)
    calc C * h ^ 5 = C * h * h ^ 4 := by ring
      _ ≤ C * h * L ^ 4 := h2
      _ = h * (C * L ^ 4) := by ring
  have hexp1 : Real.exp (h * ‖x + y‖) ≤ Real.exp (h * B) := by
    apply Real.exp_le_exp.2
    apply mul_le_mul_of_nonneg_left _ hh0
    rw [hB]
    have : 0 ≤ C * L ^ 4 := by positivity
    linarith
  have hS : ‖richStep x y h‖ ≤ Real.exp (h * B) := by
    have h2 : ‖richStep x y h‖ ≤ ‖exp (h • (x + y))‖ + C * h ^ 5 := by
      have := norm_add_le (exp (h • (x + y))) (richStep x y h - exp (h • (x + y)))
      rw [add_sub_cancel] at this
      linarith
    have h3 : Real.exp (h * B) = Real.exp (h * ‖x + y‖) * Real.exp (h * (C * L ^ 4)) := by
      rw [← Real.exp_add, hB]; congr 1; ring
    have h4 := Real.add_one_le_exp (h * (C * L ^ 4))
    have h5 : 1 ≤ Real.exp (h * ‖x + y‖) := Real.one_le_exp (by positivity)
    have h6 : 0 ≤ h * (C * L ^ 4) := by positivity
    rw [h3]
    nlinarith
  have hM : 1 ≤ Real.exp (h * B) := Real.one_le_exp (by positivity)
  have hp := pow_sub_pow _ _ _ _ h1 hS (hE.trans hexp1) hM hl j
  have hpow : exp (h • (x + y)) ^ j = exp ((j * h) • (x + y)) := by
    rw [← exp_nat, ← Nat.cast_smul_eq_nsmul ℝ, smul_smul]
  rw [hpow] at hp
  refine hp.trans ?_
  have hjn : (j : ℝ) ≤ n := by exact_mod_cast hj
  have hnh : n * h = L := by rw [hh]; field_simp
  have hexp2 : Real.exp (h * B) ^ j ≤ Real.exp (B * L) := by
    rw [← Real.exp_nat_mul]
    apply Real.exp_le_exp.2
    have : (j : ℝ) * (h * B) ≤ n * (h * B) := mul_le_mul_of_nonneg_right hjn (by positivity)
    calc (j : ℝ) * (h * B) ≤ n * (h * B) := this
      _ = B * (n * h) := by ring
      _ = B * L := by rw [hnh]
  have h7 : (j : ℝ) * (C * h ^ 5) ≤ n * (C * h ^ 5) := mul_le_mul_of_nonneg_right hjn (by positivity)
  have h8 : (n : ℝ) * (C * h ^ 5) = C * L ^ 5 / n ^ 4 := by
    rw [hh]; field_simp
  calc (j : ℝ) * (C * h ^ 5) * Real.exp (h * B) ^ j
      ≤ (n * (C * h ^ 5)) * Real.exp (B * L) :=
        mul_le_mul h7 hexp2 (by positivity) (by positivity)
    _ = C * L ^ 5 * Real.exp (B * L) / n ^ 4 := by rw [h8]; ring

/-- An operator that acts as multiplication under a linear map. -/
theorem map_exp_of_eigen {E F : Type} [NormedAddCommGroup E] [NormedSpace ℝ E] [CompleteSpace E]
    [NormedAddCommGroup F] [NormedSpace ℝ F] (φ : E →L[ℝ] F) (Y : E →L[ℝ] E) (c : ℝ)
    (h : ∀ q, φ (Y q) = c • φ q) (q : E) : φ (exp Y q) = Real.exp c • φ q := by
  have hY := exp_series_hasSum_exp' (𝕂 := ℝ) Y
  have h1 := ((ContinuousLinearMap.apply ℝ E q).hasSum hY)
  have h2 := φ.hasSum h1
  have hp : ∀ n : Nat, ∀ q, φ ((Y ^ n) q) = c ^ n • φ q := by
    intro n
    induction n with
    | zero => intro q; simp
    | succ n ih =>
      intro q
      rw [pow_succ', mul_apply_eq_comp, h, ih, smul_smul, pow_succ']
  have hc := exp_series_hasSum_exp' (𝕂 := ℝ) c
  rw [← Real.exp_eq_exp_ℝ] at hc
  have h3 := hc.smul_const (φ q)
  refine HasSum.unique ?_ h3
  have e : (fun n : Nat => ((n.factorial : ℝ)⁻¹ • c ^ n) • φ q) =
      fun n : Nat => φ (((n.factorial : ℝ)⁻¹ • Y ^ n) q) := by
    funext n
    rw [smul_apply, map_smul, hp, smul_smul, smul_eq_mul]
  rw [e]
  exact h2

end Verif.Solver.Conv
