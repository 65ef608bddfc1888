import Verif.Chem.Debye
import Verif.Tac
import Mathlib.Analysis.SpecialFunctions.Integrals.Basic
import Mathlib.Analysis.Complex.Exponential
import Mathlib.Algebra.Field.GeomSum
import Mathlib.Data.Nat.Dist

/-!
# C72: Debye functions

The specification of the bead functions is the double sum over beads, of the thread functions the
integral over the contour.
-/

set_option autoImplicit false
set_option linter.unusedSectionVars false

namespace Verif.Debye

open Finset Real

/-! ## Closed forms -/

/-- **C72**, bead model: above the threshold `eb` is the sum of `exp(-i y)` over the beads of a
block. -/
theorem C72_eb_exact (ksq kuhn : ℝ) (n : Nat)
    (hx : 1 / 10 ^ 5 ≤ (n : ℝ) * (ksq * kuhn * kuhn / 6)) :
    eb ksq n kuhn = ∑ i ∈ range n, exp (-(i * (ksq * kuhn ^ 2 / 6))) := by
  unfold eb
  simp only [if_neg (not_lt.2 hx)]
  obtain ⟨y, hy⟩ : ∃ y, y = ksq * kuhn * kuhn / 6 := ⟨_, rfl⟩
  rw [← hy] at hx ⊢
  have hy0 : y ≠ 0 := by rintro rfl; norm_num at hx
  have hz : exp (-y) ≠ 1 := by
    rw [Ne, exp_eq_one_iff]; simpa using hy0
  have h1 : ∀ i : Nat, exp (-(i * (ksq * kuhn ^ 2 / 6))) = exp (-y) ^ i := by
    intro i
    rw [← exp_nat_mul, hy]; congr 1; ring
  simp only [h1]
  rw [geom_sum_eq hz, ← exp_nat_mul, mul_neg]
  have h2 : exp (-y) - 1 ≠ 0 := sub_ne_zero.2 hz
  have h3 : 1 - exp (-y) ≠ 0 := sub_ne_zero.2 hz.symm
  field_simp
  ring

/-- Sum of powers by separation. -/
theorem sep_sum (z : ℝ) (hz : z ≠ 1) : ∀ n : Nat,
    ∑ i ∈ range n, ∑ j ∈ range n, z ^ (Nat.dist i j) =
      2 * z * (z ^ n + n * (1 - z) - 1) / ((1 - z) * (1 - z)) + n
  | 0 => by simp
  | n + 1 => by
    have h3 : 1 - z ≠ 0 := sub_ne_zero.2 hz.symm
    have hrow : ∑ i ∈ range n, z ^ Nat.dist i n = z * (1 - z ^ n) / (1 - z) := by
      have : ∀ i ∈ range n, z ^ Nat.dist i n = z * z ^ (n - 1 - i) := by
        intro i hi
        rw [mem_range] at hi
        rw [Nat.dist_eq_sub_of_le hi.le, ← pow_succ']
        congr 1; omega
      rw [sum_congr rfl this, ← mul_sum, sum_range_reflect (fun i => z ^ i) n, geom_sum_eq hz]
      have : z - 1 ≠ 0 := sub_ne_zero.2 hz
      field_simp
      ring
    rw [sum_range_succ]
    simp only [sum_range_succ, sum_add_distrib]
    rw [sep_sum z hz n, hrow]
    have hcol : ∑ j ∈ range n, z ^ Nat.dist n j = z * (1 - z ^ n) / (1 - z) := by
      rw [← hrow]; exact sum_congr rfl fun j _ => by rw [Nat.dist_comm]
    rw [hcol, Nat.dist_self]
    push_cast
    field_simp
    ring

/-- **C72**, bead model: above the threshold `db` is the double sum of `exp(-|i-j| y)` over the
beads of a block. -/
theorem C72_db_exact (ksq kuhn : ℝ) (n : Nat)
    (hx : 1 / 10 ^ 5 ≤ (n : ℝ) * (ksq * kuhn * kuhn / 6)) :
    db ksq n kuhn = ∑ i ∈ range n, ∑ j ∈ range n,
      exp (-(Nat.dist i j * (ksq * kuhn ^ 2 / 6))) := by
  unfold db
  simp only [if_neg (not_lt.2 hx)]
  obtain ⟨y, hy⟩ : ∃ y, y = ksq * kuhn * kuhn / 6 := ⟨_, rfl⟩
  rw [← hy] at hx ⊢
  have hy0 : y ≠ 0 := by rintro rfl; norm_num at hx
  have hz : exp (-y) ≠ 1 := by
    rw [Ne, exp_eq_one_iff]; simpa using hy0
  have h1 : ∀ i : Nat, exp (-(i * (ksq * kuhn ^ 2 / 6))) = exp (-y) ^ i := by
    intro i
    rw [← exp_nat_mul, hy]; congr 1; ring
  simp only [h1]
  rw [sep_sum _ hz, ← exp_nat_mul, mul_neg]

/-- **C72**, thread model: above the threshold `et` is the contour integral over a block. -/
theorem C72_et_exact (ksq length kuhn : ℝ)
    (hx : 1 / 10 ^ 5 ≤ ksq * length * kuhn * kuhn / 6) :
    et ksq length kuhn = ∫ s in (0 : ℝ)..length, exp (-(ksq * kuhn ^ 2 / 6 * s)) := by
  unfold et
  simp only [if_neg (not_lt.2 hx)]
  obtain ⟨a, ha⟩ : ∃ a, a = ksq * kuhn ^ 2 / 6 := ⟨_, rfl⟩
  have hxa : ksq * length * kuhn * kuhn / 6 = a * length := by rw [ha]; ring
  rw [hxa] at hx ⊢
  rw [← ha]
  have ha0 : a ≠ 0 := by rintro rfl; norm_num at hx
  have hl0 : length ≠ 0 := by rintro rfl; norm_num at hx
  have hder : ∀ s ∈ Set.uIcc 0 length, HasDerivAt (fun s => -exp (-(a * s)) / a)
      (exp (-(a * s))) s := by
    intro s _
    have h1 : HasDerivAt (fun s => -(a * s)) (-(a * 1)) s := ((hasDerivAt_id s).const_mul a).neg
    refine ((h1.exp.neg).div_const a).congr_deriv ?_
    field_simp
  rw [intervalIntegral.integral_eq_sub_of_hasDerivAt hder
    ((by fun_prop : Continuous fun s => exp (-(a * s))).intervalIntegrable _ _)]
  simp only [mul_zero, neg_zero, exp_zero]
  field_simp
  ring

/-- **C72**, thread model: above the threshold `dt` is the double contour integral over a block:
two points at separation `s` occur with weight `2 (L - s)`. -/
theorem C72_dt_exact (ksq length kuhn : ℝ)
    (hx : 1 / 10 ^ 5 ≤ length * ksq * kuhn * kuhn / 6) :
    dt ksq length kuhn =
      ∫ s in (0 : ℝ)..length, 2 * (length - s) * exp (-(ksq * kuhn ^ 2 / 6 * s)) := by
  unfold dt
  simp only [if_neg (not_lt.2 hx)]
  obtain ⟨a, ha⟩ : ∃ a, a = ksq * kuhn ^ 2 / 6 := ⟨_, rfl⟩
  have hxa : length * ksq * kuhn * kuhn / 6 = a * length := by rw [ha]; ring
  rw [hxa] at hx ⊢
  rw [← ha]
  have ha0 : a ≠ 0 := by rintro rfl; norm_num at hx
  have hl0 : length ≠ 0 := by rintro rfl; norm_num at hx
  have hder : ∀ s ∈ Set.uIcc 0 length,
      HasDerivAt (fun s => (-(2 * (length - s)) / a + 2 / a ^ 2) * exp (-(a * s)))
      (2 * (length - s) * exp (-(a * s))) s := by
    intro s _
    have h1 : HasDerivAt (fun s => -(a * s)) (-(a * 1)) s := ((hasDerivAt_id s).const_mul a).neg
    have h2 : HasDerivAt (fun s => -(2 * (length - s)) / a + 2 / a ^ 2) (-(2 * (-1)) / a) s :=
      (((((hasDerivAt_id s).const_sub length).const_mul 2).neg.div_const a).add_const _)
    refine (h2.mul h1.exp).congr_deriv ?_
    field_simp
    ring
  rw [intervalIntegral.integral_eq_sub_of_hasDerivAt hder
    ((by fun_prop : Continuous fun s => 2 * (length - s) * exp (-(a * s))).intervalIntegrable _ _)]
  simp only [mul_zero, neg_zero, exp_zero, sub_self, sub_zero]
  field_simp
  ring

/-! ## Small arguments -/

/-- Third order expansion. -/
theorem exp_third (x : ℝ) (h0 : 0 ≤ x) (h1 : x ≤ 1) :
    |exp (-x) - (1 - x + x ^ 2 / 2 - x ^ 3 / 6)| ≤ x ^ 4 * (5 / 96) := by
  have h := Real.exp_bound (x := -x) (by rw [abs_neg, abs_of_nonneg h0]; exact h1) (n := 4) (by norm_num)
  rw [abs_neg, abs_of_nonneg h0] at h
  simp only [sum_range_succ, sum_range_zero] at h
  norm_num [Nat.factorial] at h
  convert h using 2
  ring

/-- **C72**: below the threshold `et` agrees with the closed form to second order. -/
theorem C72_et_small (ksq length kuhn x : ℝ) (hx : x = ksq * length * kuhn * kuhn / 6) (h0 : 0 < x)
    (h1 : x < 1 / 10 ^ 5) (hl : 0 < length) :
    |et ksq length kuhn - length * ((1 - exp (-x)) / x)| ≤ length * x ^ 3 := by
  have h := exp_third x h0.le (by linarith [show (1 : ℝ) / 10 ^ 5 ≤ 1 by norm_num])
  unfold et
  simp only [← hx, if_pos h1]
  rw [mul_comm _ length, ← mul_sub, abs_mul, abs_of_pos hl]
  refine mul_le_mul_of_nonneg_left ?_ hl.le
  have : 1 - x / 2 + x * x / 6 - (1 - exp (-x)) / x =
      (exp (-x) - (1 - x + x ^ 2 / 2 - x ^ 3 / 6)) / x := by field_simp; ring
  rw [this, abs_div, abs_of_pos h0, div_le_iff₀ h0]
  nlinarith [pow_pos h0 4]

/-- Below the threshold `dt` differs from the closed form by an amount of first order in `x`. -/
theorem C72_dt_small (ksq length kuhn x : ℝ) (hx : x = length * ksq * kuhn * kuhn / 6) (h0 : 0 < x)
    (h1 : x < 1 / 10 ^ 5) (hl : 0 < length) :
    length ^ 2 * (x / 4) ≤
      dt ksq length kuhn - length ^ 2 * (2 * (exp (-x) - 1 + x) / x ^ 2) ∧
    dt ksq length kuhn - length ^ 2 * (2 * (exp (-x) - 1 + x) / x ^ 2) ≤ length ^ 2 * x := by
  have h := exp_third x h0.le (by linarith [show (1 : ℝ) / 10 ^ 5 ≤ 1 by norm_num])
  rw [abs_le] at h
  unfold dt
  simp only [← hx, if_pos h1]
  have e : (1 - x * x / 3) * (length * length) - length ^ 2 * (2 * (exp (-x) - 1 + x) / x ^ 2) =
      length ^ 2 * (x / 3 - x ^ 2 / 3 - 2 * (exp (-x) - (1 - x + x ^ 2 / 2 - x ^ 3 / 6)) / x ^ 2) := by
    field_simp; ring
  rw [e]
  have hx2 : 0 < x ^ 2 := pow_pos h0 2
  have hb1 : 2 * (exp (-x) - (1 - x + x ^ 2 / 2 - x ^ 3 / 6)) / x ^ 2 ≤ x ^ 2 * (10 / 96) := by
    rw [div_le_iff₀ hx2]; nlinarith
  have hb2 : -(x ^ 2 * (10 / 96)) ≤ 2 * (exp (-x) - (1 - x + x ^ 2 / 2 - x ^ 3 / 6)) / x ^ 2 := by
    rw [le_div_iff₀ hx2]; nlinarith
  have hq : x ^ 2 ≤ x * (1 / 10 ^ 5) := by nlinarith
  norm_num at hq
  constructor <;> refine mul_le_mul_of_nonneg_left ?_ (sq_nonneg _) <;> linarith

/-- The order claimed by the expansion `1 - x²/3` kept by the code is not achieved: the true
expansion of the Debye function is `1 - x/3 + …`, so no constant bounds the error by `x²`. -/
theorem C72_dt_violated : ¬ ∃ C : ℝ, ∀ ksq length kuhn x : ℝ, x = length * ksq * kuhn * kuhn / 6 →
    0 < x → x < 1 / 10 ^ 5 → 0 < length →
    |dt ksq length kuhn - length ^ 2 * (2 * (exp (-x) - 1 + x) / x ^ 2)| ≤ C * (length ^ 2 * x ^ 2) := by
  rintro ⟨C, h⟩
  obtain ⟨x, hx0, hx1, hx2⟩ : ∃ x : ℝ, 0 < x ∧ x < 1 / 10 ^ 5 ∧ C * x < 1 / 4 := by
    refine ⟨1 / (10 ^ 6 * (|C| + 1)), by positivity, ?_, ?_⟩
    · rw [div_lt_div_iff₀ (by positivity) (by norm_num)]
      nlinarith [abs_nonneg C]
    · rw [mul_one_div, div_lt_iff₀ (by positivity)]
      nlinarith [abs_nonneg C, le_abs_self C]
  have h1 := h (6 * x) 1 1 x (by ring) hx0 hx1 one_pos
  have h2 := (C72_dt_small (6 * x) 1 1 x (by ring) hx0 hx1 one_pos).1
  have h3 := (le_abs_self _).trans h1
  nlinarith

/-- **C72**: below the threshold the bead functions have a relative error less than the threshold. -/
theorem C72_bead_small_partial (ksq kuhn x : ℝ) (n : Nat) (hn : 0 < n)
    (hx : x = (n : ℝ) * (ksq * kuhn * kuhn / 6)) (h0 : 0 ≤ x) (h1 : x < 1 / 10 ^ 5) :
    |eb ksq n kuhn - ∑ i ∈ range n, exp (-(i * (ksq * kuhn ^ 2 / 6)))| ≤ n * x ∧
    |db ksq n kuhn - ∑ i ∈ range n, ∑ j ∈ range n, exp (-(Nat.dist i j * (ksq * kuhn ^ 2 / 6)))|
      ≤ (n : ℝ) ^ 2 * x := by
  have hn' : (0 : ℝ) < n := by exact_mod_cast hn
  have hy : 0 ≤ ksq * kuhn ^ 2 / 6 := by
    by_contra hc
    push Not at hc
    have : x = n * (ksq * kuhn ^ 2 / 6) := by rw [hx]; ring
    nlinarith
  have hterm : ∀ d : Nat, d ≤ n → exp (-(d * (ksq * kuhn ^ 2 / 6))) ≤ 1 ∧
      1 - x ≤ exp (-(d * (ksq * kuhn ^ 2 / 6))) := by
    intro d hd
    have hdn : (d : ℝ) ≤ n := by exact_mod_cast hd
    constructor
    · rw [exp_le_one_iff]
      have : 0 ≤ (d : ℝ) * (ksq * kuhn ^ 2 / 6) := by positivity
      linarith
    · have := add_one_le_exp (-(d * (ksq * kuhn ^ 2 / 6)))
      have h2 : x = n * (ksq * kuhn ^ 2 / 6) := by rw [hx]; ring
      nlinarith
  have hxs : x * x ≤ x := by nlinarith [show (1 : ℝ) / 10 ^ 5 ≤ 1 by norm_num]
  have hnn : (1 : ℝ) / 10 ^ 5 ≤ 1 := by norm_num
  constructor
  · have s1 : ∑ i ∈ range n, exp (-(i * (ksq * kuhn ^ 2 / 6))) ≤ n := by
      calc _ ≤ ∑ _i ∈ range n, (1 : ℝ) := sum_le_sum fun i hi => (hterm i (mem_range.1 hi).le).1
        _ = n := by simp
    have s2 : n * (1 - x) ≤ ∑ i ∈ range n, exp (-(i * (ksq * kuhn ^ 2 / 6))) := by
      calc n * (1 - x) = ∑ _i ∈ range n, (1 - x) := by rw [sum_const, card_range, nsmul_eq_mul]
        _ ≤ _ := sum_le_sum fun i hi => (hterm i (mem_range.1 hi).le).2
    unfold eb
    simp only [← hx, if_pos h1]
    rw [abs_le]
    have c1 : (1 - x / 2 + x * x / 6) * n ≤ n := by nlinarith
    have c2 : n * (1 - x) ≤ (1 - x / 2 + x * x / 6) * n := by nlinarith [mul_nonneg h0 h0]
    constructor <;> nlinarith
  · have hd : ∀ i ∈ range n, ∀ j ∈ range n, Nat.dist i j ≤ n := by
      intro i hi j hj
      rw [mem_range] at hi hj
      unfold Nat.dist; omega
    have s1 : ∑ i ∈ range n, ∑ j ∈ range n, exp (-(Nat.dist i j * (ksq * kuhn ^ 2 / 6))) ≤ (n : ℝ) ^ 2 := by
      calc _ ≤ ∑ _i ∈ range n, ∑ _j ∈ range n, (1 : ℝ) :=
            sum_le_sum fun i hi => sum_le_sum fun j hj => (hterm _ (hd i hi j hj)).1
        _ = (n : ℝ) ^ 2 := by simp [sq]
    have s2 : (n : ℝ) ^ 2 * (1 - x) ≤
        ∑ i ∈ range n, ∑ j ∈ range n, exp (-(Nat.dist i j * (ksq * kuhn ^ 2 / 6))) := by
      calc (n : ℝ) ^ 2 * (1 - x) = ∑ _i ∈ range n, ∑ _j ∈ range n, (1 - x) := by
            simp only [sum_const, card_range, nsmul_eq_mul]; ring
        _ ≤ _ := sum_le_sum fun i hi => sum_le_sum fun j hj => (hterm _ (hd i hi j hj)).2
    unfold db
    simp only [← hx, if_pos h1]
    have hnsq : 0 < (n : ℝ) ^ 2 := by positivity
    rw [abs_le, show (1 - x * x / 3) * ((n : ℝ) * n) = (1 - x * x / 3) * (n : ℝ) ^ 2 by ring]
    have hxx := mul_nonneg h0 h0
    have c1 : (1 - x * x / 3) * (n : ℝ) ^ 2 ≤ (n : ℝ) ^ 2 := by nlinarith
    have c2 : (n : ℝ) ^ 2 * (1 - x) ≤ (1 - x * x / 3) * (n : ℝ) ^ 2 := by nlinarith
    constructor <;> nlinarith

/-- The expansion of `eb` is also only correct to zeroth order for a block of one bead, whose exact
value is 1. -/
theorem C72_eb_violated (x : ℝ) (h0 : 0 < x) (h1 : x < 1 / 10 ^ 5) :
    eb (6 * x) (1 : Nat) 1 ≤ (∑ i ∈ range 1, exp (-(i * (6 * x * 1 ^ 2 / 6)))) - x / 4 := by
  have e : 6 * x / 6 = x := by ring
  unfold eb
  simp only [Nat.cast_one, one_mul, e, if_pos h1, sum_range_one, Nat.cast_zero, zero_mul, neg_zero,
    exp_zero, mul_one]
  nlinarith [show (1 : ℝ) / 10 ^ 5 ≤ 1 by norm_num]

/-! ## Pairs of blocks -/

theorem foldl_rsq (r : ℝ) : ∀ l : List (ℝ × ℝ),
    l.foldl (fun r c => r + c.1 * c.2 * c.2) r = r + (l.map fun c => c.1 * c.2 ^ 2).sum := by
  intro l
  induction l generalizing r with
  | nil => simp
  | cons a l ih => simp only [List.foldl_cons, ih, List.map_cons, List.sum_cons]; ring

/-- **C72**: the contribution of two blocks of a bead polymer is the sum over pairs of beads of
`exp(-k² R²/6)`, where `R²` is the sum of the squared lengths of all bonds on the path between the
beads. A block of `N` beads contributes `N - 1` bonds and half a bond at each end. -/
theorem C72_pair_bead (ksq kuhnA kuhnB : ℝ) (nA nB : Nat) (mid : List (ℝ × ℝ))
    (hA : 1 / 10 ^ 5 ≤ (nA : ℝ) * (ksq * kuhnA * kuhnA / 6))
    (hB : 1 / 10 ^ 5 ≤ (nB : ℝ) * (ksq * kuhnB * kuhnB / 6)) :
    pairBead ksq nA kuhnA nB kuhnB mid = ∑ i ∈ range nA, ∑ j ∈ range nB,
      exp (-ksq / 6 * ((i + 1 / 2) * kuhnA ^ 2 + (j + 1 / 2) * kuhnB ^ 2 +
        (mid.map fun c => c.1 * c.2 ^ 2).sum)) := by
  unfold pairBead
  simp only [foldl_rsq]
  rw [C72_eb_exact _ _ _ hA, C72_eb_exact _ _ _ hB, mul_assoc, sum_mul_sum, mul_sum]
  refine sum_congr rfl fun i _ => ?_
  rw [mul_sum]
  refine sum_congr rfl fun j _ => ?_
  rw [← exp_add, ← exp_add]
  congr 1
  ring

/-- **C72**: the contribution of two blocks of a thread polymer is the integral over pairs of points
of `exp(-k² R²/6)`, where `R²` is the mean squared length of the path between the points: through the
parts of the two blocks and all of the blocks between them. -/
theorem C72_pair_thread (ksq lA kuhnA lB kuhnB : ℝ) (mid : List (ℝ × ℝ))
    (hA : 1 / 10 ^ 5 ≤ ksq * lA * kuhnA * kuhnA / 6)
    (hB : 1 / 10 ^ 5 ≤ ksq * lB * kuhnB * kuhnB / 6) :
    pairThread ksq lA kuhnA lB kuhnB mid = ∫ s in (0 : ℝ)..lA, ∫ t in (0 : ℝ)..lB,
      exp (-ksq / 6 * (s * kuhnA ^ 2 + t * kuhnB ^ 2 + (mid.map fun c => c.1 * c.2 ^ 2).sum)) := by
  unfold pairThread
  simp only [foldl_rsq]
  rw [C72_et_exact _ _ _ hA, C72_et_exact _ _ _ hB, mul_assoc, ← intervalIntegral.integral_mul_const,
    ← intervalIntegral.integral_const_mul]
  congr 1
  funext s
  rw [← intervalIntegral.integral_const_mul, ← intervalIntegral.integral_const_mul]
  congr 1
  funext t
  rw [← exp_add, ← exp_add]
  congr 1
  ring

/-- Example: a triblock of three threads of lengths 1, 2 and 1 at `k² = 6`. -/
example : pairThread 6 1 1 1 1 [(2, 1)] = ∫ s in (0 : ℝ)..1, ∫ t in (0 : ℝ)..1,
    exp (-6 / 6 * (s * 1 ^ 2 + t * 1 ^ 2 + 2)) := by
  have := C72_pair_thread 6 1 1 1 1 [(2, 1)] (by norm_num) (by norm_num)
  simpa using this

/-- Example: a diblock of 3 and 2 beads at `k² = 6`. -/
example : pairBead 6 (3 : Nat) 1 (2 : Nat) 1 [] = ∑ i ∈ range 3, ∑ j ∈ range 2,
    exp (-6 / 6 * ((i + 1 / 2) * 1 ^ 2 + (j + 1 / 2) * 1 ^ 2 + 0)) := by
  have := C72_pair_bead 6 1 1 3 2 [] (by norm_num) (by norm_num)
  simpa using this

example : db 6 (3 : Nat) 1 = ∑ i ∈ range 3, ∑ j ∈ range 3, exp (-(Nat.dist i j * (6 * 1 ^ 2 / 6))) :=
  C72_db_exact 6 1 3 (by norm_num)

example : |et (6 / 10 ^ 6) 1 1 - 1 * ((1 - exp (-(1 / 10 ^ 6))) / (1 / 10 ^ 6))| ≤
    1 * (1 / 10 ^ 6) ^ 3 :=
  C72_et_small (6 / 10 ^ 6) 1 1 (1 / 10 ^ 6) (by norm_num) (by norm_num) (by norm_num) one_pos

end Verif.Debye
