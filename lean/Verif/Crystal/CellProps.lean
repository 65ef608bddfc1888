import Verif.Crystal.CellModel
import Verif.Tac
import Mathlib.LinearAlgebra.Matrix.Determinant.Basic
import Mathlib.LinearAlgebra.Matrix.NonsingularInverse
import Mathlib.Analysis.SpecialFunctions.Trigonometric.InverseDeriv
import Mathlib.Analysis.SpecialFunctions.Sqrt
import Mathlib.Analysis.Calculus.Deriv.Inv
import Mathlib.Analysis.Calculus.Deriv.Prod

/-!
# Unit cells: reciprocal lattice, derivatives, replication, parameter ids (C34 – C38)
-/

namespace Verif.Crystal

open Matrix Topology

/-! ## C34 -/

/-- The reciprocity relation `r_i . k_j = 2 pi delta_ij`. -/
def Reciprocal {D : Nat} (r k : BasisVecs D) : Prop :=
  ∀ i j, ∑ s, r i s * k j s = if i = j then 2 * Real.pi else 0

/-- Linearly independent Bravais vectors. -/
def NonDegenerate {D : Nat} (r : BasisVecs D) : Prop := (Matrix.of r).det ≠ 0

/-- C34 in one dimension. -/
theorem C34_reciprocal_1D (l : Lat1) (p : Params) (h : NonDegenerate (l.rBasis p)) :
    Reciprocal (l.rBasis p) (l.kBasis p) := by
  intro i j
  fin_cases i; fin_cases j
  simp [NonDegenerate, Lat1.rBasis] at h
  simp [Lat1.rBasis, Lat1.kBasis, twoPi]
  field_simp

/-- C34 in two dimensions, every lattice system. -/
theorem C34_reciprocal_2D (l : Lat2) (p : Params) (h : NonDegenerate (l.rBasis p)) :
    Reciprocal (l.rBasis p) (l.kBasis p) := by
  have h3 : √(3:ℝ) ≠ 0 := by positivity
  unfold NonDegenerate at h
  rw [Matrix.det_fin_two] at h
  have h0 : p 0 ≠ 0 := fun e => h (by cases l <;> simp [Lat2.rBasis, e])
  intro i j
  cases l
  case rectangular =>
    have h1 : p 1 ≠ 0 := fun e => h (by simp [Lat2.rBasis, e])
    fin_cases i <;> fin_cases j <;>
      simp [Lat2.rBasis, Lat2.kBasis, twoPi, Fin.sum_univ_two] <;> field_simp
  case rhombic =>
    have hs : Real.sin (p 1) ≠ 0 := fun e => h (by simp [Lat2.rBasis, e])
    fin_cases i <;> fin_cases j <;>
      simp [Lat2.rBasis, Lat2.kBasis, twoPi, Fin.sum_univ_two] <;> field_simp <;> (try ring)
  case oblique =>
    have h1 : p 1 ≠ 0 := fun e => h (by simp [Lat2.rBasis, e])
    have hs : Real.sin (p 2) ≠ 0 := fun e => h (by simp [Lat2.rBasis, e])
    fin_cases i <;> fin_cases j <;>
      simp [Lat2.rBasis, Lat2.kBasis, twoPi, Fin.sum_univ_two] <;> field_simp <;> (try ring)
  all_goals
    fin_cases i <;> fin_cases j <;>
      simp [Lat2.rBasis, Lat2.kBasis, twoPi, Fin.sum_univ_two] <;> field_simp <;> (try ring)

/-- C34 in three dimensions, every lattice system. -/
theorem C34_reciprocal_3D (l : Lat3) (p : Params) (h : NonDegenerate (l.rBasis p)) :
    Reciprocal (l.rBasis p) (l.kBasis p) := by
  have h3 : √(3:ℝ) ≠ 0 := by positivity
  have h33 : √(3:ℝ) ^ 2 = 3 := by norm_num
  unfold NonDegenerate at h
  rw [Matrix.det_fin_three] at h
  have h0 : p 0 ≠ 0 := fun e => h (by cases l <;> simp [Lat3.rBasis, e])
  intro i j
  cases l
  case cubic =>
    fin_cases i <;> fin_cases j <;>
      simp [Lat3.rBasis, Lat3.kBasis, twoPi, Fin.sum_univ_three] <;> field_simp
  case tetragonal =>
    have h1 : p 1 ≠ 0 := fun e => h (by simp [Lat3.rBasis, e])
    fin_cases i <;> fin_cases j <;>
      simp [Lat3.rBasis, Lat3.kBasis, twoPi, Fin.sum_univ_three] <;> field_simp
  case orthorhombic =>
    have h1 : p 1 ≠ 0 := fun e => h (by simp [Lat3.rBasis, e])
    have h2 : p 2 ≠ 0 := fun e => h (by simp [Lat3.rBasis, e])
    fin_cases i <;> fin_cases j <;>
      simp [Lat3.rBasis, Lat3.kBasis, twoPi, Fin.sum_univ_three] <;> field_simp
  case hexagonal =>
    have h1 : p 1 ≠ 0 := fun e => h (by simp [Lat3.rBasis, e])
    fin_cases i <;> fin_cases j <;>
      simp [Lat3.rBasis, Lat3.kBasis, twoPi, Fin.sum_univ_three] <;> field_simp <;> (try ring)
  case monoclinic =>
    have h1 : p 1 ≠ 0 := fun e => h (by simp [Lat3.rBasis, e])
    have h2 : p 2 ≠ 0 := fun e => h (by simp [Lat3.rBasis, e])
    have hs : Real.sin (p 3) ≠ 0 := fun e => h (by simp [Lat3.rBasis, e])
    fin_cases i <;> fin_cases j <;>
      simp [Lat3.rBasis, Lat3.kBasis, twoPi, Fin.sum_univ_three] <;> field_simp <;> (try ring)
  case triclinic =>
    have h1 : p 1 ≠ 0 := fun e => h (by simp [Lat3.rBasis, e])
    have h2 : p 2 ≠ 0 := fun e => h (by simp [Lat3.rBasis, e])
    have hs : Real.sin (p 5) ≠ 0 := fun e => h (by simp [Lat3.rBasis, e])
    have hc : Real.cos (p 4) ≠ 0 := fun e => h (by simp [Lat3.rBasis, e])
    fin_cases i <;> fin_cases j <;>
      simp [Lat3.rBasis, Lat3.kBasis, twoPi, Fin.sum_univ_three] <;> field_simp <;> (try ring)
  case rhombohedral =>
    have hS0 : Real.sin (rhTheta (p 1)) ≠ 0 := fun e => h (by simp [Lat3.rBasis, e])
    have hC0 : Real.cos (rhTheta (p 1)) ≠ 0 := fun e => h (by simp [Lat3.rBasis, e])
    fin_cases i <;> fin_cases j <;>
      simp [Lat3.rBasis, Lat3.kBasis, twoPi, Fin.sum_univ_three] <;>
      field_simp <;> (try rw [h33]) <;> (try ring)

/-- The reported volume is the determinant of the Bravais basis, in every dimension. -/
theorem C34_volume (r1 : BasisVecs 1) (r2 : BasisVecs 2) (r3 : BasisVecs 3) :
    volume1 r1 = (Matrix.of r1).det ∧ volume2 r2 = (Matrix.of r2).det ∧
      volume3 r3 = (Matrix.of r3).det := by
  refine ⟨by simp [volume1], ?_, ?_⟩
  · rw [Matrix.det_fin_two]; simp [volume2]
  · rw [Matrix.det_fin_three]; simp [volume3]; ring

-- a triclinic cell with three non-trivial angles meets the hypothesis of C34
example : NonDegenerate (Lat3.triclinic.rBasis ![2, 3, 4, Real.pi / 3, Real.pi / 4, Real.pi / 6]) := by
  unfold NonDegenerate
  rw [Matrix.det_fin_three]
  simp [Lat3.rBasis, Real.cos_pi_div_four]

-- a rhombohedral cell with right angles
example : NonDegenerate (Lat3.rhombohedral.rBasis ![2, Real.pi / 2, 0, 0, 0, 0]) := by
  have hc : Real.cos (rhTheta (Real.pi / 2)) = √(1/3) := by
    rw [rhTheta, Real.cos_pi_div_two, Real.cos_arccos]
    · norm_num
    · linarith [Real.sqrt_nonneg ((2 * 0 + 1) / 3 : ℝ)]
    · rw [Real.sqrt_le_one]; norm_num
  have hs : Real.sin (rhTheta (Real.pi / 2)) = √(2/3) := by
    rw [rhTheta, Real.cos_pi_div_two, Real.sin_arccos, Real.sq_sqrt (by norm_num)]
    norm_num
  unfold NonDegenerate
  rw [Matrix.det_fin_three]
  simp only [Lat3.rBasis]
  simp [hc, hs]
  have h1 : 0 < √(3:ℝ) := by positivity
  have h2 : 0 < √(2:ℝ) := by positivity
  have h3 : √(3:ℝ) ^ 2 = 3 := by norm_num
  have h4 : √(2:ℝ) ^ 2 = 2 := by norm_num
  field_simp
  nlinarith

/-! ## C37 -/

/-- C37 in one dimension: the new Bravais vector is the replica count times the old one. -/
theorem C37_replicate_1D (n : Fin 1 → Int) (c : Cell Lat1) :
    ∃ c', replicate1 n c = .ok c' ∧
      ∀ i j, c'.1.rBasis c'.2 i j = (n i : ℝ) * c.1.rBasis c.2 i j := by
  obtain ⟨l, p⟩ := c
  cases l
  refine ⟨_, rfl, fun i j => ?_⟩
  fin_cases i; fin_cases j
  simp [Lat1.rBasis]

/-- C37 in two dimensions: a replicated cell has Bravais vectors `n_i r_i` (so lengths are
multiplied by the replica counts and angles are kept), and only a hexagonal cell with unequal
replica counts is rejected. -/
theorem C37_replicate_2D (n : Fin 2 → Int) (c : Cell Lat2) :
    (∀ c', replicate2 n c = .ok c' →
      ∀ i j, c'.1.rBasis c'.2 i j = (n i : ℝ) * c.1.rBasis c.2 i j) ∧
    (replicate2 n c = .throw ↔ c.1 = .hexagonal ∧ n 0 ≠ n 1) ∧ replicate2 n c ≠ .ub := by
  obtain ⟨l, p⟩ := c
  refine ⟨?_, ?_, ?_⟩
  · intro c' h i j
    cases l <;> simp only [replicate2] at h <;> (try split at h) <;>
      simp only [Res.ok.injEq, reduceCtorEq] at h <;> subst h <;>
      fin_cases i <;> fin_cases j <;> simp_all [Lat2.rBasis] <;> ring
  · cases l <;> simp only [replicate2] <;> (try split) <;> simp_all
  · cases l <;> simp only [replicate2] <;> (try split) <;> simp_all

/-- C37 in three dimensions: as in two, with rejection exactly for hexagonal cells with unequal
counts in the basal plane and rhombohedral cells with counts that are not all equal. -/
theorem C37_replicate_3D (n : Fin 3 → Int) (c : Cell Lat3) :
    (∀ c', replicate3 n c = .ok c' →
      ∀ i j, c'.1.rBasis c'.2 i j = (n i : ℝ) * c.1.rBasis c.2 i j) ∧
    (replicate3 n c = .throw ↔ (c.1 = .hexagonal ∧ n 0 ≠ n 1) ∨
      (c.1 = .rhombohedral ∧ ¬ (n 0 = n 1 ∧ n 1 = n 2))) ∧ replicate3 n c ≠ .ub := by
  obtain ⟨l, p⟩ := c
  refine ⟨?_, ?_, ?_⟩
  · intro c' h i j
    cases l <;> simp only [replicate3] at h <;> (try split at h) <;> (try split at h) <;>
      simp only [Res.ok.injEq, reduceCtorEq] at h <;> subst h <;>
      fin_cases i <;> fin_cases j <;> simp_all [Lat3.rBasis] <;> ring
  · cases l <;> simp only [replicate3] <;> (try split) <;> (try split) <;> simp_all
  · cases l <;> simp only [replicate3] <;> (try split) <;> (try split) <;> simp_all

/-- The rejected combinations cannot be represented by a cell of the same lattice system. -/
theorem C37_rejected_2D (n : Fin 2 → Int) (p p' : Params) (hp : p 0 ≠ 0) (hn : n 0 ≠ n 1) :
    ¬ ∀ i j, Lat2.hexagonal.rBasis p' i j = (n i : ℝ) * Lat2.hexagonal.rBasis p i j := by
  intro h
  have h0 := h 0 0
  have h1 := h 1 0
  simp [Lat2.rBasis] at h0 h1
  rw [h0] at h1
  have : ((n 0 : ℝ) - n 1) * p 0 = 0 := by linarith
  rcases mul_eq_zero.mp this with h | h
  · exact hn (by exact_mod_cast sub_eq_zero.mp h)
  · exact hp h

theorem C37_rejected_3D_hexagonal (n : Fin 3 → Int) (p p' : Params) (hp : p 0 ≠ 0)
    (hn : n 0 ≠ n 1) :
    ¬ ∀ i j, Lat3.hexagonal.rBasis p' i j = (n i : ℝ) * Lat3.hexagonal.rBasis p i j := by
  intro h
  have h0 := h 0 0
  have h1 := h 1 0
  simp [Lat3.rBasis] at h0 h1
  rw [h0] at h1
  have : ((n 0 : ℝ) - n 1) * p 0 = 0 := by linarith
  rcases mul_eq_zero.mp this with h | h
  · exact hn (by exact_mod_cast sub_eq_zero.mp h)
  · exact hp h

theorem C37_rejected_3D_rhombohedral (n : Fin 3 → Int) (p p' : Params)
    (hp : NonDegenerate (Lat3.rhombohedral.rBasis p)) (hn : ¬ (n 0 = n 1 ∧ n 1 = n 2)) :
    ¬ ∀ i j, Lat3.rhombohedral.rBasis p' i j =
      (n i : ℝ) * Lat3.rhombohedral.rBasis p i j := by
  intro h
  unfold NonDegenerate at hp
  rw [Matrix.det_fin_three] at hp
  have h0 : p 0 ≠ 0 := fun e => hp (by simp [Lat3.rBasis, e])
  have hC0 : Real.cos (rhTheta (p 1)) ≠ 0 := fun e => hp (by simp [Lat3.rBasis, e])
  have e0 := h 0 2
  have e1 := h 1 2
  have e2 := h 2 2
  simp [Lat3.rBasis] at e0 e1 e2
  have hx : Real.cos (rhTheta (p 1)) * p 0 ≠ 0 := mul_ne_zero hC0 h0
  apply hn
  constructor
  · have := e0.symm.trans e1
    exact_mod_cast mul_right_cancel₀ hx this
  · have := e1.symm.trans e2
    exact_mod_cast mul_right_cancel₀ hx this

/-- The volume of a replicated cell is the product of the replica counts times the volume. -/
theorem C37_volume (n : Fin 3 → Int) (c c' : Cell Lat3) (h : replicate3 n c = .ok c') :
    volume3 (c'.1.rBasis c'.2) = (n 0 : ℝ) * n 1 * n 2 * volume3 (c.1.rBasis c.2) := by
  have := (C37_replicate_3D n c).1 c' h
  simp only [volume3, this]
  ring

/-- The target cell object accepts the result iff it has no lattice system yet or the same one;
otherwise the call throws and never stores parameters under another lattice system. -/
theorem C37_target {L : Type} [DecidableEq L] (prev : Option L) (c c' : Cell L) :
    setLattice prev c = .ok c' ↔ c' = c ∧ (prev = none ∨ prev = some c.1) := by
  cases prev with
  | none => simp [setLattice, eq_comm]
  | some l =>
    simp only [setLattice]
    split
    · rename_i h; simp [h, eq_comm]
    · rename_i h; simp [Ne.symm h]

example : ∃ c', replicate3 ![2, 3, 1] (.tetragonal, ![1, 5, 0, 0, 0, 0]) = .ok c' ∧
    c'.1 = .orthorhombic := by
  simp [replicate3]

/-! ## C38 -/

/-- C38: a valid reduced id is converted to a full id and back to itself; other ids throw. -/
theorem C38_round_trip_1D (l : Lat1) (r : Int) :
    (0 ≤ r ∧ r < l.nParameter → ∃ f, l.reducedToFull r = .ok f ∧ l.fullToReduced f = .ok r) ∧
      (¬ (0 ≤ r ∧ r < l.nParameter) → l.reducedToFull r = .throw) := by
  cases l
  constructor
  · intro h
    have : r = 0 := by simp [Lat1.nParameter] at h; omega
    subst this
    exact ⟨0, rfl, rfl⟩
  · intro h
    have : r ≠ 0 := by rintro rfl; exact h (by simp [Lat1.nParameter])
    simp [Lat1.reducedToFull, this]

theorem C38_round_trip_2D (l : Lat2) (r : Int) :
    (0 ≤ r ∧ r < l.nParameter → ∃ f, l.reducedToFull r = .ok f ∧ l.fullToReduced f = .ok r) ∧
      (¬ (0 ≤ r ∧ r < l.nParameter) → l.reducedToFull r = .throw) := by
  constructor
  · rintro ⟨h1, h2⟩
    cases l <;> simp only [Lat2.nParameter] at h2 <;> push_cast at h2 <;>
      interval_cases r <;> exact ⟨_, rfl, rfl⟩
  · intro h
    cases l <;> simp [Lat2.nParameter] at h <;> simp [Lat2.reducedToFull] <;> intros <;> omega

theorem C38_round_trip_3D (l : Lat3) (r : Int) :
    (0 ≤ r ∧ r < l.nParameter → ∃ f, l.reducedToFull r = .ok f ∧ l.fullToReduced f = .ok r) ∧
      (¬ (0 ≤ r ∧ r < l.nParameter) → l.reducedToFull r = .throw) := by
  constructor
  · rintro ⟨h1, h2⟩
    cases l <;> simp only [Lat3.nParameter] at h2 <;> push_cast at h2 <;>
      interval_cases r <;> exact ⟨_, rfl, rfl⟩
  · intro h
    cases l <;> simp [Lat3.nParameter] at h <;> simp [Lat3.reducedToFull] <;> intros <;> omega

/-- Scalar product of Bravais vectors. -/
def dot {D : Nat} (r : BasisVecs D) (i j : Fin D) : ℝ := ∑ s, r i s * r j s

/-- Reduced ids of lengths denote lengths: `|r_f|^2` is the square of the parameter whose id is
returned for the full id `f < D`. -/
theorem C38_length_2D (l : Lat2) (p : Params) (f : Fin 2) :
    ∃ r : Fin 6, l.fullToReduced (f.val : Int) = .ok (r.val : Int) ∧ r.val < l.nParameter ∧
      dot (l.rBasis p) f f = p r ^ 2 := by
  have h3 : √(3:ℝ) ^ 2 = 3 := by norm_num
  fin_cases f <;> cases l
  case «0».hexagonal | «1».hexagonal | «0».square | «1».square | «0».rectangular |
    «0».rhombic | «1».rhombic | «0».oblique =>
    refine ⟨0, rfl, by decide, ?_⟩
    simp [dot, Lat2.rBasis, Fin.sum_univ_two]
    first | ring1 | linear_combination (1/4) * p 0 ^ 2 * h3 |
      linear_combination p 0 ^ 2 * Real.sin_sq_add_cos_sq (p 1)
  case «1».rectangular =>
    refine ⟨1, rfl, by decide, ?_⟩
    simp [dot, Lat2.rBasis, Fin.sum_univ_two]; ring
  case «1».oblique =>
    refine ⟨1, rfl, by decide, ?_⟩
    simp [dot, Lat2.rBasis, Fin.sum_univ_two]
    linear_combination p 1 ^ 2 * Real.sin_sq_add_cos_sq (p 2)

/-- Angle in two dimensions: full id 2 is `gamma`; it is the returned parameter, or rigid
(id -1) with the same cosine for all parameters. `a`, `b` are the lengths. -/
theorem C38_angle_2D (l : Lat2) (p : Params) :
    (∃ r : Fin 6, l.fullToReduced 2 = .ok (r.val : Int) ∧ r.val < l.nParameter ∧
      ∃ a b : Fin 6, l.fullToReduced 0 = .ok (a.val : Int) ∧ l.fullToReduced 1 = .ok (b.val : Int) ∧
      dot (l.rBasis p) 0 1 = p a * p b * Real.cos (p r)) ∨
    (l.fullToReduced 2 = .ok (-1) ∧ ∃ a b : Fin 6, l.fullToReduced 0 = .ok (a.val : Int) ∧
      l.fullToReduced 1 = .ok (b.val : Int) ∧
      dot (l.rBasis p) 0 1 = p a * p b * (if l = .hexagonal then -1/2 else 0)) := by
  cases l
  case rhombic =>
    refine .inl ⟨1, rfl, by decide, 0, 0, rfl, rfl, ?_⟩
    simp [dot, Lat2.rBasis, Fin.sum_univ_two]; ring
  case oblique =>
    refine .inl ⟨2, rfl, by decide, 0, 1, rfl, rfl, ?_⟩
    simp [dot, Lat2.rBasis, Fin.sum_univ_two]; ring
  case rectangular =>
    refine .inr ⟨rfl, 0, 1, rfl, rfl, ?_⟩
    simp [dot, Lat2.rBasis, Fin.sum_univ_two]
  case square =>
    refine .inr ⟨rfl, 0, 0, rfl, rfl, ?_⟩
    simp [dot, Lat2.rBasis, Fin.sum_univ_two]
  case hexagonal =>
    refine .inr ⟨rfl, 0, 0, rfl, rfl, ?_⟩
    simp [dot, Lat2.rBasis, Fin.sum_univ_two]; ring

/-- Id of a length parameter of a 3D lattice for vector `i`. -/
def lengthId (l : Lat3) (i : Fin 3) : Fin 6 :=
  match l, i with
  | .cubic, _ | .rhombohedral, _ => 0
  | .tetragonal, 2 | .hexagonal, 2 => 1
  | .tetragonal, _ | .hexagonal, _ => 0
  | _, 0 => 0
  | _, 1 => 1
  | _, 2 => 2

theorem rh_cos_sq {beta : ℝ} (h0 : -1/2 ≤ Real.cos beta) :
    Real.cos (rhTheta beta) ^ 2 = (2 * Real.cos beta + 1) / 3 := by
  have h1 : 0 ≤ (2 * Real.cos beta + 1) / 3 := by linarith
  have hle : (2 * Real.cos beta + 1) / 3 ≤ 1 := by linarith [Real.cos_le_one beta]
  rw [rhTheta, Real.cos_arccos]
  · exact Real.sq_sqrt h1
  · linarith [Real.sqrt_nonneg ((2 * Real.cos beta + 1) / 3)]
  · exact Real.sqrt_le_one.mpr hle

/-- Lengths in three dimensions. -/
theorem C38_length_3D (l : Lat3) (p : Params) (f : Fin 3) :
    l.fullToReduced (f.val : Int) = .ok ((lengthId l f).val : Int) ∧
      (lengthId l f).val < l.nParameter ∧ dot (l.rBasis p) f f = p (lengthId l f) ^ 2 := by
  have h3 : √(3:ℝ) ^ 2 = 3 := by norm_num
  refine ⟨by fin_cases f <;> cases l <;> rfl, by fin_cases f <;> cases l <;> decide, ?_⟩
  cases l
  case hexagonal =>
    fin_cases f <;> simp [dot, Lat3.rBasis, lengthId, Fin.sum_univ_three] <;>
    first | ring1 | linear_combination (1/4) * p 0 ^ 2 * h3
  case rhombohedral =>
    fin_cases f <;> simp [dot, Lat3.rBasis, lengthId, Fin.sum_univ_three]
    · linear_combination p 0 ^ 2 * Real.sin_sq_add_cos_sq (rhTheta (p 1))
    · linear_combination p 0 ^ 2 * Real.sin_sq_add_cos_sq (rhTheta (p 1)) +
        (1/4) * p 0 ^ 2 * Real.sin (rhTheta (p 1)) ^ 2 * h3
    · linear_combination p 0 ^ 2 * Real.sin_sq_add_cos_sq (rhTheta (p 1)) +
        (1/4) * p 0 ^ 2 * Real.sin (rhTheta (p 1)) ^ 2 * h3
  case monoclinic =>
    fin_cases f <;> simp [dot, Lat3.rBasis, lengthId, Fin.sum_univ_three] <;>
    first | ring1 | linear_combination p 2 ^ 2 * Real.sin_sq_add_cos_sq (p 3)
  case triclinic =>
    fin_cases f <;> simp [dot, Lat3.rBasis, lengthId, Fin.sum_univ_three]
    · ring
    · linear_combination p 1 ^ 2 * Real.sin_sq_add_cos_sq (p 5)
    · linear_combination p 2 ^ 2 * Real.sin_sq_add_cos_sq (p 4) +
        p 2 ^ 2 * Real.sin (p 4) ^ 2 * Real.sin_sq_add_cos_sq (p 3)
  all_goals
    fin_cases f <;> simp [dot, Lat3.rBasis, lengthId, Fin.sum_univ_three] <;> ring

/-- The pair of vectors that encloses angle `f = 3, 4, 5` (`alpha`, `beta`, `gamma`). -/
def anglePair (f : Fin 3) : Fin 3 × Fin 3 :=
  match f with
  | 0 => (1, 2)
  | 1 => (0, 2)
  | 2 => (0, 1)

/-- Cosine of the rigid angles. -/
noncomputable def rigidCos (l : Lat3) (f : Fin 3) : ℝ :=
  if l = .hexagonal ∧ f = 2 then -1/2 else 0

/-- Angles in three dimensions, except `alpha` and `beta` of a triclinic lattice: the id returned
for full id `3 + f` denotes the angle between the two vectors, or is -1 if that angle has the
same cosine for all parameters. See `C38_triclinic_violated` for the exception. -/
theorem C38_angle_3D_partial (l : Lat3) (p : Params) (f : Fin 3)
    (hx : l = .triclinic → f = 2) (hr : l = .rhombohedral → -1/2 ≤ Real.cos (p 1)) :
    (∃ r : Fin 6, l.fullToReduced (3 + (f.val : Int)) = .ok (r.val : Int) ∧
      r.val < l.nParameter ∧
      dot (l.rBasis p) (anglePair f).1 (anglePair f).2 =
        p (lengthId l (anglePair f).1) * p (lengthId l (anglePair f).2) * Real.cos (p r)) ∨
    (l.fullToReduced (3 + (f.val : Int)) = .ok (-1) ∧
      dot (l.rBasis p) (anglePair f).1 (anglePair f).2 =
        p (lengthId l (anglePair f).1) * p (lengthId l (anglePair f).2) * rigidCos l f) := by
  have h3 : √(3:ℝ) ^ 2 = 3 := by norm_num
  cases l
  case rhombohedral =>
    left
    have hc := rh_cos_sq (hr rfl)
    have hs := Real.sin_sq_add_cos_sq (rhTheta (p 1))
    refine ⟨1, by fin_cases f <;> rfl, by decide, ?_⟩
    fin_cases f <;> simp [dot, Lat3.rBasis, lengthId, anglePair, Fin.sum_univ_three]
    · linear_combination (-1/2) * p 0 ^ 2 * hs + (3/2) * p 0 ^ 2 * hc
        - (1/4) * p 0 ^ 2 * Real.sin (rhTheta (p 1)) ^ 2 * h3
    · linear_combination (-1/2) * p 0 ^ 2 * hs + (3/2) * p 0 ^ 2 * hc
    · linear_combination (-1/2) * p 0 ^ 2 * hs + (3/2) * p 0 ^ 2 * hc
  case monoclinic =>
    fin_cases f
    · right; refine ⟨rfl, ?_⟩
      simp [dot, Lat3.rBasis, anglePair, rigidCos, Fin.sum_univ_three]
    · left; refine ⟨3, rfl, by decide, ?_⟩
      simp [dot, Lat3.rBasis, anglePair, lengthId, Fin.sum_univ_three]; ring
    · right; refine ⟨rfl, ?_⟩
      simp [dot, Lat3.rBasis, anglePair, rigidCos, Fin.sum_univ_three]
  case triclinic =>
    obtain rfl := hx rfl
    left; refine ⟨5, rfl, by decide, ?_⟩
    simp [dot, Lat3.rBasis, anglePair, lengthId, Fin.sum_univ_three]; ring
  case hexagonal =>
    right
    refine ⟨by fin_cases f <;> rfl, ?_⟩
    fin_cases f <;> simp [dot, Lat3.rBasis, anglePair, lengthId, rigidCos, Fin.sum_univ_three]
    ring
  all_goals
    right
    refine ⟨by fin_cases f <;> rfl, ?_⟩
    fin_cases f <;> simp [dot, Lat3.rBasis, anglePair, rigidCos, Fin.sum_univ_three]

/-- For a triclinic lattice the conversion maps full ids 3, 4 (documented as `alpha`, `beta`)
to parameters 3, 4, which are `phi` and `theta`: there are cells whose angle `alpha` is not
parameter 3. -/
theorem C38_triclinic_violated :
    Lat3.triclinic.fullToReduced 3 = .ok 3 ∧
    ∃ p : Params, NonDegenerate (Lat3.triclinic.rBasis p) ∧
      dot (Lat3.triclinic.rBasis p) 1 2 ≠ p 1 * p 2 * Real.cos (p 3) := by
  refine ⟨rfl, ![1, 1, 1, 0, 0, Real.pi / 2], ?_, ?_⟩
  · unfold NonDegenerate
    rw [Matrix.det_fin_three]
    simp [Lat3.rBasis]
  · simp [dot, Lat3.rBasis, Fin.sum_univ_three]

/-- `hasVariableAngle` tells whether some full angle id has a reduced id. -/
theorem C38_variable_angle (l : Lat3) :
    l.hasVariableAngle = true ↔
      ∃ f : Fin 3, ∃ r : Int, l.fullToReduced (3 + (f.val : Int)) = .ok r ∧ r ≠ -1 := by
  cases l <;> simp [Lat3.hasVariableAngle, Lat3.fullToReduced, Fin.exists_fin_succ]

end Verif.Crystal
