import Verif.Math.Tridiag
import Verif.Tac

/-! # C19: the tridiagonal solver inverts the tridiagonal matrix -/

namespace Verif.Math

variable {K : Type} [Field K]

/-- Specification: element `i` of the product of the n×n tridiagonal matrix with `x`. -/
def triMul (n : Nat) (d u l x : Nat → K) (i : Nat) : K :=
  d i * x i + (if 0 < i then l (i - 1) * x (i - 1) else 0) + (if i + 1 < n then u i * x (i + 1) else 0)

/-- C19: with nonzero pivots before the last, `multiply` is the product with the matrix whose
LU decomposition was computed. -/
theorem C19_multiply (t : Tri K) (n : Nat) (hp : ∀ i, i + 1 < n → t.dLU i ≠ 0) (b : Nat → K)
    (i : Nat) (hi : i < n) : t.multiply n b i = triMul n t.d t.u t.l b i := by
  unfold triMul Tri.multiply
  rcases i with _ | i
  · simp only [if_true, Tri.multY, lt_irrefl, if_false]
    by_cases h : 0 = n - 1
    · rw [if_pos h, if_neg (by omega), ← h]; simp [Tri.dLU]
    · rw [if_neg h, if_pos (by omega)]; simp [Tri.dLU]
  · have hpi := hp i (by omega)
    have hne : ¬ (i = n - 1) := by omega
    rw [if_neg (by omega), if_pos (by omega)]
    simp only [Nat.add_sub_cancel, Tri.multY, if_neg hne, Tri.lLU]
    by_cases h : i + 1 = n - 1
    · rw [if_pos h, if_neg (by omega), ← h]
      simp only [Tri.dLU]
      field_simp
      ring
    · rw [if_neg h, if_pos (by omega)]
      simp only [Tri.dLU]
      field_simp
      ring

/-- The vector found by back substitution satisfies U x = y. -/
theorem back_spec (t : Tri K) (n : Nat) (hp : ∀ i, i < n → t.dLU i ≠ 0) (y : Nat → K)
    (i : Nat) (hi : i < n) :
    t.multY n (fun i => t.back n y (n - 1 - i)) i = y i := by
  unfold Tri.multY
  by_cases h : i = n - 1
  · have := hp (n - 1) (by omega)
    rw [if_pos h, h]
    simp only [Nat.sub_self, Tri.back]
    field_simp
  · have := hp i hi
    rw [if_neg h]
    obtain ⟨k, hk⟩ : ∃ k, n - 1 - i = k + 1 := ⟨n - 2 - i, by omega⟩
    have hk' : n - 1 - (i + 1) = k := by omega
    have hi' : n - 2 - k = i := by omega
    simp only [hk, hk', Tri.back, hi']
    field_simp
    ring

/-- C19: `multiply` undoes `solve` when no pivot is zero. -/
theorem C19_multiply_solve (t : Tri K) (n : Nat) (hp : ∀ i, i < n → t.dLU i ≠ 0) (b : Nat → K)
    (i : Nat) (hi : i < n) : t.multiply n (t.solve n b) i = b i := by
  have hy : ∀ j, j < n → t.multY n (t.solve n b) j = t.fwd b j :=
    fun j hj => back_spec t n hp (t.fwd b) j hj
  unfold Tri.multiply
  rcases i with _ | i
  · rw [if_pos rfl, hy 0 hi]; rfl
  · rw [if_neg (by omega), hy _ hi, Nat.add_sub_cancel, hy _ (by omega)]
    simp only [Tri.fwd]; ring

/-- C19: the vector returned by `solve` solves the linear system. -/
theorem C19_solve_correct (t : Tri K) (n : Nat) (hp : ∀ i, i < n → t.dLU i ≠ 0) (b : Nat → K)
    (i : Nat) (hi : i < n) : triMul n t.d t.u t.l (t.solve n b) i = b i := by
  rw [← C19_multiply t n (fun j hj => hp j (by omega)) _ i hi, C19_multiply_solve t n hp b i hi]

/-- C19: `solve` undoes `multiply` when no pivot is zero. -/
theorem C19_solve_multiply (t : Tri K) (n : Nat) (hp : ∀ i, i < n → t.dLU i ≠ 0) (x : Nat → K)
    (i : Nat) (hi : i < n) : t.solve n (t.multiply n x) i = x i := by
  have hf : ∀ j, j < n → t.fwd (t.multiply n x) j = t.multY n x j := by
    intro j
    induction j with
    | zero => intro _; simp [Tri.fwd, Tri.multiply]
    | succ j ih =>
      intro hj
      rw [Tri.fwd, ih (by omega), Tri.multiply, if_neg (by omega), Nat.add_sub_cancel]; ring
  have hb : ∀ k, k < n → t.back n (t.fwd (t.multiply n x)) k = x (n - 1 - k) := by
    intro k
    induction k with
    | zero =>
      intro hk
      have := hp (n - 1) (by omega)
      rw [Tri.back, hf _ (by omega), Tri.multY, if_pos rfl, Nat.sub_zero]
      field_simp
    | succ k ih =>
      intro hk
      have := hp (n - 2 - k) (by omega)
      rw [Tri.back, hf _ (by omega), ih (by omega), Tri.multY, if_neg (by omega)]
      have e1 : n - 2 - k + 1 = n - 1 - k := by omega
      have e2 : n - 1 - (k + 1) = n - 2 - k := by omega
      rw [e1, e2]
      field_simp
      ring
  rw [Tri.solve, hb _ (by omega)]
  congr 1; omega

/-- C19: for a strictly diagonally dominant matrix (each diagonal element larger in magnitude
than the sum of its row neighbours) the decomposition meets no zero pivot, so the previous
theorems apply. -/
theorem C19_dominant_pivots [LinearOrder K] [IsStrictOrderedRing K] (t : Tri K) (n : Nat)
    (h0 : 0 < n → (if 1 < n then |t.u 0| else 0) < |t.d 0|)
    (hdom : ∀ i, i + 1 < n → |t.l i| + (if i + 2 < n then |t.u (i + 1)| else 0) < |t.d (i + 1)|) :
    ∀ i, i < n → (if i + 1 < n then |t.u i| else 0) < |t.dLU i| ∧ t.dLU i ≠ 0 := by
  have key : ∀ i, i < n → (if i + 1 < n then |t.u i| else 0) < |t.dLU i| := by
    intro i
    induction i with
    | zero => intro h; exact h0 h
    | succ i ih =>
      intro hi
      have h1 := ih (by omega)
      rw [if_pos hi] at h1
      have h2 := hdom i hi
      have hd : 0 < |t.dLU i| := lt_of_le_of_lt (abs_nonneg _) h1
      have h3 : |t.l i / t.dLU i * t.u i| ≤ |t.l i| := by
        rw [abs_mul, abs_div, div_mul_eq_mul_div, div_le_iff₀ hd]
        exact mul_le_mul_of_nonneg_left h1.le (abs_nonneg _)
      have h4 : |t.d (i + 1)| - |t.l i / t.dLU i * t.u i| ≤ |t.dLU (i + 1)| :=
        abs_sub_abs_le_abs_sub _ _
      have e : i + 1 + 1 = i + 2 := rfl
      rw [e]
      linarith
  intro i hi
  refine ⟨key i hi, ?_⟩
  intro hz
  have := key i hi
  rw [hz, abs_zero] at this
  have h2 : (0 : K) ≤ if i + 1 < n then |t.u i| else 0 := by split <;> simp
  exact absurd this (not_lt.2 h2)

/-- C19, two-argument `computeLU`: `solve` then solves the symmetric system with off-diagonal `u`. -/
theorem C19_symmetric (d u : Nat → K) (n : Nat) (hp : ∀ i, i < n → (Tri.symm d u).dLU i ≠ 0)
    (b : Nat → K) (i : Nat) (hi : i < n) :
    d i * (Tri.symm d u).solve n b i
      + (if 0 < i then u (i - 1) * (Tri.symm d u).solve n b (i - 1) else 0)
      + (if i + 1 < n then u i * (Tri.symm d u).solve n b (i + 1) else 0) = b i :=
  C19_solve_correct (Tri.symm d u) n hp b i hi

/-- A 3×3 non-symmetric instance: no zero pivot, and both round trips are exact. -/
example : let t : Tri ℚ := ⟨fun _ => 4, fun i => i + 1, fun i => 2 - i⟩
    (∀ i, i < 3 → t.dLU i ≠ 0) ∧ t.solve 3 (fun i => i) 2 ≠ 0 := by
  refine ⟨?_, ?_⟩
  · intro i hi
    interval_cases i <;> norm_num [Tri.dLU]
  · norm_num [Tri.solve, Tri.back, Tri.fwd, Tri.dLU, Tri.lLU]

/-- Without the pivot condition the round trip fails: [[0,1],[1,0]] is invertible, but its
first pivot is zero (in floating point `solve` returns NaN or infinities; with the convention
x/0 = 0 of the model it returns a wrong vector). -/
theorem C19_zero_pivot_needed :
    let t : Tri ℚ := Tri.symm (fun _ => 0) (fun _ => 1)
    t.dLU 0 = 0 ∧ triMul 2 t.d t.u t.l (t.solve 2 (fun _ => 1)) 0 ≠ 1 := by
  norm_num [triMul, Tri.symm, Tri.solve, Tri.back, Tri.fwd, Tri.dLU, Tri.lLU]

end Verif.Math
