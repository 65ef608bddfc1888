import Verif.Crystal.SymLemmas
import Mathlib.LinearAlgebra.Matrix.Determinant.Basic
import Mathlib.LinearAlgebra.Matrix.NonsingularInverse

/-! # C27 (symmetry algebra), C28 (rotation inverse), C29 (group container), C30 (inversion
centre), C31 (origin shift), C32 (mesh compatibility), C33 (group files) -/

set_option linter.unusedSectionVars false

namespace Verif.Crystal

variable {D : Nat}

/-! ## C28 -/

theorem tdiv_unit {a d : Int} (h : d * d = 1) : a.tdiv d = a * d := by
  rcases Int.eq_one_or_neg_one_of_mul_eq_one h with rfl | rfl
  · simp
  · simp [Int.tdiv_neg]

/-- C28: for every integer matrix in 1, 2 or 3 dimensions, the computed matrix is the two-sided
inverse if the determinant is ±1, and an exception is thrown otherwise. -/
theorem C28_inverse_rotation (hD : D = 1 ∨ D = 2 ∨ D = 3) (R : Fin D → Fin D → Int) :
    (IsUnit (Matrix.of R).det → ∃ A, inverseRotation D R = .ok A ∧
      Matrix.of A * Matrix.of R = 1 ∧ Matrix.of R * Matrix.of A = 1) ∧
    (¬ IsUnit (Matrix.of R).det → inverseRotation D R = .throw) := by
  have hunit : ∀ d : Int, IsUnit d ↔ d * d = 1 := by
    intro d
    rw [Int.isUnit_iff]
    constructor
    · rintro (rfl | rfl) <;> rfl
    · exact fun h => Int.eq_one_or_neg_one_of_mul_eq_one h
  have left_to_right : ∀ {n : Nat} (A R : Fin n → Fin n → Int),
      Matrix.of A * Matrix.of R = 1 → Matrix.of R * Matrix.of A = 1 := by
    intro n A R h
    exact mul_eq_one_comm.mp h
  rw [hunit]
  rcases hD with rfl | rfl | rfl
  · have hdet : (Matrix.of R).det = R 0 0 := by simp
    rw [hdet]
    constructor
    · intro h
      refine ⟨fun _ _ => R 0 0, by simp [inverseRotation, h], ?_⟩
      have h1 : Matrix.of (fun _ _ => R 0 0 : Fin 1 → Fin 1 → Int) * Matrix.of R = 1 := by
        ext i j
        fin_cases i; fin_cases j
        simp [Matrix.mul_apply, h]
      exact ⟨h1, left_to_right _ _ h1⟩
    · intro h
      simp only [inverseRotation]
      rw [if_pos (fun h' => h h'.symm)]
  · have hdet : (Matrix.of R).det = R 0 0 * R 1 1 - R 0 1 * R 1 0 := by
      rw [Matrix.det_fin_two]; rfl
    rw [hdet]
    constructor
    · intro h
      simp only [inverseRotation]
      rw [if_neg (fun h' => h' h.symm)]
      refine ⟨_, rfl, ?_⟩
      refine (fun h1 => ⟨h1, left_to_right _ _ h1⟩) ?_
      ext i j
      fin_cases i <;> fin_cases j <;>
        simp [Matrix.mul_apply, Fin.sum_univ_two, tdiv_unit h] <;> first | ring1 | linear_combination h
    · intro h
      simp only [inverseRotation]
      rw [if_pos (fun h' => h h'.symm)]
  · have hdet : (Matrix.of R).det = 0 + R 0 0 * (R 1 1 * R 2 2 - R 1 2 * R 2 1)
      + R 0 1 * (R 1 2 * R 2 0 - R 1 0 * R 2 2)
      + R 0 2 * (R 1 0 * R 2 1 - R 1 1 * R 2 0) := by
      rw [Matrix.det_fin_three]; simp only [Matrix.of_apply]; ring
    rw [hdet]
    constructor
    · intro h
      simp only [inverseRotation]
      rw [if_neg (fun h' => h' h.symm)]
      refine ⟨_, rfl, ?_⟩
      refine (fun h1 => ⟨h1, left_to_right _ _ h1⟩) ?_
      have h' := h
      simp only [zero_add] at h'
      ext i j
      fin_cases i <;> fin_cases j <;>
        simp [Matrix.mul_apply, Fin.sum_univ_three, tdiv_unit h'] <;> first | ring1 | linear_combination h
    · intro h
      simp only [inverseRotation]
      rw [if_pos (fun h' => h h'.symm)]

/-- A three-fold rotation and its inverse. -/
example : (inverseRotation 2 fun i j => match i, j with
    | 0, 0 => 0 | 0, 1 => -1 | 1, 0 => 1 | 1, 1 => -1) =
    .ok (fun i j => match i, j with | 0, 0 => -1 | 0, 1 => 1 | 1, 0 => -1 | 1, 1 => 0) := by
  decide +kernel

/-! ## C27 -/

/-- C27: normalisation reduces every translation to `[0,1)` by an integer, and leaves the
rotation alone. -/
theorem C27_normalize (A : Sym D) :
    A.normalize.R = A.R ∧ ∀ i, 0 ≤ A.normalize.t i ∧ A.normalize.t i < 1 ∧
      ∃ z : ℤ, A.t i = A.normalize.t i + z := by
  refine ⟨rfl, fun i => ?_⟩
  rw [normalize_t]
  refine ⟨Int.fract_nonneg _, Int.fract_lt_one _, ⌊A.t i⌋, ?_⟩
  exact (Int.fract_add_floor _).symm

/-- C27: products are associative. -/
theorem C27_mul_assoc (A B C : Sym D) : (A.mul B).mul C = A.mul (B.mul C) := by
  apply Sym.ext'
  · intro i j
    rw [mul_R, mul_R]
    simp only [mul_R, Finset.sum_mul, Finset.mul_sum]
    rw [Finset.sum_comm]
    exact Finset.sum_congr rfl fun k _ => Finset.sum_congr rfl fun l _ => by ring
  · intro i
    rw [mul_t (A.mul B) C, mul_t A (B.mul C)]
    apply fract_eq_of_cong
    have h1 : Cong ((A.mul B).t i + ∑ k, ((A.mul B).R i k : ℚ) * C.t k)
        ((A.t i + ∑ j, (A.R i j : ℚ) * B.t j) + ∑ k, ((A.mul B).R i k : ℚ) * C.t k) := by
      refine Cong.add ?_ (Cong.refl _)
      rw [mul_t]; exact Cong.fract _
    have h2 : Cong (A.t i + ∑ j, (A.R i j : ℚ) * (B.mul C).t j)
        (A.t i + ∑ j, (A.R i j : ℚ) * (B.t j + ∑ k, (B.R j k : ℚ) * C.t k)) := by
      refine Cong.add (Cong.refl _) (Cong.sum _ fun j => ?_)
      refine Cong.intMul _ ?_
      rw [mul_t]; exact Cong.fract _
    refine h1.trans (Cong.trans ?_ h2.symm)
    have e : (A.t i + ∑ j, (A.R i j : ℚ) * B.t j) + ∑ k, ((A.mul B).R i k : ℚ) * C.t k =
        A.t i + ∑ j, (A.R i j : ℚ) * (B.t j + ∑ k, (B.R j k : ℚ) * C.t k) := by
      simp only [mul_R, mul_add, Finset.sum_add_distrib, Finset.mul_sum, Int.cast_sum,
        Int.cast_mul, Finset.sum_mul]
      rw [add_assoc]
      congr 2
      rw [Finset.sum_comm]
      exact Finset.sum_congr rfl fun k _ => Finset.sum_congr rfl fun l _ => by ring
    rw [e]
    exact Cong.refl _

/-- C27: the identity is neutral on reduced symmetries. -/
theorem C27_identity (A : Sym D) (h : A.Reduced) :
    (Sym.identity D).mul A = A ∧ A.mul (Sym.identity D) = A := by
  constructor
  · apply Sym.ext'
    · intro i j; rw [mul_R]; simp [Sym.identity]
    · intro i
      rw [mul_t]
      simp only [Sym.identity]
      rw [zero_add, Finset.sum_eq_single i]
      · simpa using Int.fract_eq_self.mpr (h i)
      · intro b _ hb; simp [Ne.symm hb]
      · simp
  · apply Sym.ext'
    · intro i j; rw [mul_R]; simp [Sym.identity]
    · intro i
      rw [mul_t]
      simpa [Sym.identity] using Int.fract_eq_self.mpr (h i)

/-- C27: `inverse()` returns a two-sided inverse, and succeeds exactly for unimodular
rotations. -/
theorem C27_inverse (hD : D = 1 ∨ D = 2 ∨ D = 3) (A : Sym D) :
    (IsUnit (Matrix.of A.R).det → ∃ B, A.inverse = .ok B ∧ B.Reduced ∧
      A.mul B = Sym.identity D ∧ B.mul A = Sym.identity D) ∧
    (¬ IsUnit (Matrix.of A.R).det → A.inverse = .throw) := by
  have h28 := C28_inverse_rotation hD A.R
  constructor
  · intro hu
    obtain ⟨R, hR, h1, h2⟩ := h28.1 hu
    have hB : ∃ B, A.inverse = .ok B ∧ B.R = R := by
      unfold Sym.inverse
      rw [hR]
      exact ⟨_, rfl, rfl⟩
    obtain ⟨B, hB, hBR⟩ := hB
    subst hBR
    obtain ⟨_, hBt⟩ := inverse_ok hB
    have e1 : ∀ i j, ∑ k, B.R i k * A.R k j = if i = j then 1 else 0 := by
      intro i j
      have := congrFun (congrFun h1 i) j
      simpa [Matrix.mul_apply, Matrix.one_apply] using this
    have e2 : ∀ i j, ∑ k, A.R i k * B.R k j = if i = j then 1 else 0 := by
      intro i j
      have := congrFun (congrFun h2 i) j
      simpa [Matrix.mul_apply, Matrix.one_apply] using this
    refine ⟨B, hB, ?_, ?_, ?_⟩
    · intro i; rw [hBt]; exact ⟨Int.fract_nonneg _, Int.fract_lt_one _⟩
    · apply Sym.ext'
      · intro i j; rw [mul_R, e2]; rfl
      · intro i
        rw [mul_t]
        show _ = (0 : ℚ)
        rw [← Int.fract_zero (R := ℚ)]
        apply fract_eq_of_cong
        have h3 : Cong (A.t i + ∑ j, (A.R i j : ℚ) * B.t j)
            (A.t i + ∑ j, (A.R i j : ℚ) * (- ∑ k, (B.R j k : ℚ) * A.t k)) := by
          refine Cong.add (Cong.refl _) (Cong.sum _ fun j => Cong.intMul _ ?_)
          rw [hBt]; exact Cong.fract _
        refine h3.trans ?_
        have e : ∑ j, (A.R i j : ℚ) * (- ∑ k, (B.R j k : ℚ) * A.t k) =
            - ∑ k, ((∑ j, A.R i j * B.R j k : Int) : ℚ) * A.t k := by
          simp only [Int.cast_sum, Int.cast_mul, Finset.sum_mul, mul_neg, Finset.mul_sum,
            Finset.sum_neg_distrib]
          rw [Finset.sum_comm]
          congr 1
          exact Finset.sum_congr rfl fun k _ => Finset.sum_congr rfl fun l _ => by ring
        rw [e]
        simp only [e2]
        have : ∑ k, ((if i = k then (1 : Int) else 0 : Int) : ℚ) * A.t k = A.t i := by simp
        rw [this, add_neg_cancel]
        exact Cong.refl _
    · apply Sym.ext'
      · intro i j; rw [mul_R, e1]; rfl
      · intro i
        rw [mul_t]
        show _ = (0 : ℚ)
        rw [← Int.fract_zero (R := ℚ)]
        apply fract_eq_of_cong
        have h3 : Cong (B.t i + ∑ j, (B.R i j : ℚ) * A.t j)
            (- (∑ j, (B.R i j : ℚ) * A.t j) + ∑ j, (B.R i j : ℚ) * A.t j) := by
          refine Cong.add ?_ (Cong.refl _)
          rw [hBt]; exact Cong.fract _
        rw [neg_add_cancel] at h3
        exact h3
  · intro hu
    unfold Sym.inverse
    rw [h28.2 hu]
    rfl

/-- C27: the product acts on positions (modulo the lattice) as applying `B`, then `A`. -/
theorem C27_action_positions (A B : Sym D) (x : Fin D → ℚ) (i : Fin D) :
    Cong ((A.mul B).t i + ∑ j, ((A.mul B).R i j : ℚ) * x j)
      (A.t i + ∑ j, (A.R i j : ℚ) * (B.t j + ∑ k, (B.R j k : ℚ) * x k)) := by
  have e : A.t i + ∑ j, (A.R i j : ℚ) * (B.t j + ∑ k, (B.R j k : ℚ) * x k) =
      (A.t i + ∑ j, (A.R i j : ℚ) * B.t j) + ∑ j, ((A.mul B).R i j : ℚ) * x j := by
    simp only [mul_R, mul_add, Finset.sum_add_distrib, Finset.mul_sum, Int.cast_sum,
      Int.cast_mul, Finset.sum_mul]
    rw [add_assoc]
    congr 2
    rw [Finset.sum_comm]
    exact Finset.sum_congr rfl fun k _ => Finset.sum_congr rfl fun l _ => by ring
  rw [e]
  refine Cong.add ?_ (Cong.refl _)
  rw [mul_t]; exact Cong.fract _

/-- C27: on wavevectors, multiplication from the right by a product is multiplication by one
factor after the other, and phases (in units of `2π`) add up. -/
theorem C27_action_waves (A B : Sym D) (G : Fin D → Int) :
    Sym.vecMul G (A.mul B) = Sym.vecMul (Sym.vecMul G A) B ∧
    Cong (∑ i, (G i : ℚ) * (A.mul B).t i)
      (∑ i, (G i : ℚ) * A.t i + ∑ i, (Sym.vecMul G A i : ℚ) * B.t i) := by
  constructor
  · funext i
    simp only [Sym.vecMul, accum_eq, zero_add, mul_R, Finset.mul_sum, Finset.sum_mul]
    rw [Finset.sum_comm]
    exact Finset.sum_congr rfl fun k _ => Finset.sum_congr rfl fun l _ => by ring
  · have h1 : Cong (∑ i, (G i : ℚ) * (A.mul B).t i)
        (∑ i, (G i : ℚ) * (A.t i + ∑ j, (A.R i j : ℚ) * B.t j)) := by
      refine Cong.sum _ fun j => Cong.intMul _ ?_
      rw [mul_t]; exact Cong.fract _
    refine h1.trans ?_
    have e : ∑ i, (G i : ℚ) * (A.t i + ∑ j, (A.R i j : ℚ) * B.t j) =
        ∑ i, (G i : ℚ) * A.t i + ∑ i, (Sym.vecMul G A i : ℚ) * B.t i := by
      simp only [Sym.vecMul, accum_eq, zero_add, mul_add, Finset.sum_add_distrib, Finset.mul_sum,
        Int.cast_sum, Int.cast_mul, Finset.sum_mul]
      congr 1
      rw [Finset.sum_comm]
      exact Finset.sum_congr rfl fun k _ => Finset.sum_congr rfl fun l _ => by ring
    rw [e]
    exact Cong.refl _

/-- C27: multiplication of a wavevector from the left. -/
theorem C27_mulVec (A B : Sym D) (G : Fin D → Int) :
    (A.mul B).mulVec G = A.mulVec (B.mulVec G) := by
  funext i
  simp only [Sym.mulVec, accum_eq, zero_add, mul_R, Finset.mul_sum, Finset.sum_mul]
  rw [Finset.sum_comm]
  exact Finset.sum_congr rfl fun k _ => Finset.sum_congr rfl fun l _ => by ring

/-- A glide reflection in two dimensions. -/
def glide : Sym 2 where
  R := fun i j => if i = j then (if i = 0 then 1 else -1) else 0
  t := fun i => if i = 0 then 1/2 else 0

/-- Its square is the identity, it is reduced and its own inverse. -/
example : glide.mul glide = Sym.identity 2 ∧ glide.inverse = .ok glide ∧
    glide.normalize = glide := by decide +kernel

end Verif.Crystal
