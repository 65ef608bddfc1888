import Verif.Film.Props
import Verif.Tac

/-!
Property C64, continued: the length of the film, the check of the lattice vectors, and the two
ways in which the stated property fails.
-/

set_option autoImplicit false
set_option linter.unusedSectionVars false

namespace Verif.Film

open Verif Verif.Crystal

noncomputable section

/-- C64. Without a bulk free energy the parameter of the normal vector is not flexible, so that
the length of that lattice vector cannot change (2D). -/
theorem C64_length_fixed2 (l : Lat2) (n : Fin 2) (size : Nat) (cur u : Nat → Bool)
    (h : flexible2 l n.val false size cur = .ok u) (p q : Params) (hvar : VaryOnly u p q) :
    dotv (l.rBasis q) n n = dotv (l.rBasis p) n n := by
  unfold flexible2 at h
  dsimp only at h
  by_cases hs : size ≠ l.nParameter
  · rw [if_pos hs] at h; cases h
  rw [if_neg hs] at h
  rw [if_neg (by simp)] at h
  cases hr : l.fullToReduced n.val with
  | throw => rw [hr] at h; cases h
  | ub => rw [hr] at h; cases h
  | ok i =>
    rw [hr] at h
    simp only [Res.bind] at h
    split at h
    · cases h
    · injection h with h
      obtain ⟨k, hk, e⟩ := C63_length2 l p n i hr
      obtain ⟨k', hk', e'⟩ := C63_length2 l q n i hr
      have hkk : k' = k := by ext; omega
      subst hkk
      rw [e, e']
      have hu : u k'.val = false := by
        rw [← h]
        simp [setFalse, hk]
      rw [hvar.eq k' hu]

/-- C64. Without a bulk free energy the length of the normal vector cannot change (3D). -/
theorem C64_length_fixed3 (l : Lat3) (n : Fin 3) (size : Nat) (cur u : Nat → Bool)
    (h : flexible3 l n.val false size cur = .ok u) (p q : Params) (hvar : VaryOnly u p q) :
    dotv (l.rBasis q) n n = dotv (l.rBasis p) n n := by
  unfold flexible3 at h
  dsimp only at h
  by_cases hs : size ≠ l.nParameter
  · rw [if_pos hs] at h; cases h
  rw [if_neg hs] at h
  by_cases hrh : l = .rhombohedral
  · rw [if_pos hrh] at h; cases h
  rw [if_neg hrh] at h
  rw [if_neg (by simp)] at h
  cases hr : l.fullToReduced n.val with
  | throw => rw [hr] at h; cases h
  | ub => rw [hr] at h; cases h
  | ok i =>
    rw [hr] at h
    simp only [Res.bind] at h
    split at h
    · cases h
    · injection h with h
      obtain ⟨k, hk, e⟩ := C63_length3 l p n i hr
      obtain ⟨k', hk', e'⟩ := C63_length3 l q n i hr
      have hkk : k' = k := by ext; omega
      subst hkk
      rw [e, e']
      have hu : u k'.val = false := by
        rw [← h]
        simp [setFalse, hk]
      rw [hvar.eq k' hu]

/-- C64. With a bulk free energy, parameters that are flexible and cannot tilt the walls stay
flexible: every length keeps its flag. -/
theorem C64_lengths_kept3 (l : Lat3) (n : Int) (size : Nat) (cur : Nat → Bool)
    (hs : size = l.nParameter) (hl : l ≠ .rhombohedral) (hn : 0 ≤ n) :
    ∃ u, flexible3 l n true size cur = .ok u ∧ ∀ j, j < 3 → u j = cur j := by
  unfold flexible3
  dsimp only
  rw [if_neg (not_not.2 hs), if_neg hl, if_pos rfl]
  refine ⟨_, rfl, ?_⟩
  intro j hj
  split_ifs
  · simp [setFalse, show (j : Int) ≠ 3 by omega]
  · rfl
  · simp [setFalse, show (j : Int) ≠ 3 by omega, show (j : Int) ≠ 4 by omega,
      show (j : Int) ≠ 5 by omega]
  · rfl

/-! ## The check of the lattice vectors -/

/-- C64. A cell accepted in two dimensions has walls perpendicular to the normal within the
tolerance, provided that the angle between the lattice vectors is not obtuse. -/
theorem C64_check2_partial (r : BasisVecs 2) :
    checkVectors2 r = .ok () ↔ dotv r 0 1 ≤ 1e-8 := by
  unfold checkVectors2
  split_ifs with h
  · simp only [reduceCtorEq, false_iff, not_le]; exact h
  · simp only [true_iff]; exact not_lt.1 h

/-- C64. A cell accepted in three dimensions has walls perpendicular to the normal within the
tolerance, provided that the angles of the normal vector with the others are not obtuse. -/
theorem C64_check3_partial (n : Fin 3) (r : BasisVecs 3) :
    checkVectors3 n.val r = .ok () ↔ ∀ j, j ≠ n → dotv r n j ≤ 1e-8 := by
  have hc : ∀ i j, dotv r i j = dotv r j i := by
    intro i j
    unfold dotv
    exact Finset.sum_congr rfl fun k _ => mul_comm _ _
  unfold checkVectors3
  fin_cases n
  · dsimp only
    simp only [Nat.cast_zero, if_true, CharP.cast_eq_zero]
    split_ifs with h
    · simp only [reduceCtorEq, false_iff]
      intro hh
      have h1 := hh 1 (by decide)
      have h2 := hh 2 (by decide)
      rcases h with h | h
      · exact absurd h2 (not_le.2 h)
      · exact absurd h1 (not_le.2 h)
    · push Not at h
      simp only [true_iff]
      intro j hj
      fin_cases j
      · exact absurd rfl hj
      · exact h.2
      · exact h.1
  · dsimp only
    simp only [Nat.cast_one, if_true, one_ne_zero, if_false]
    split_ifs with h
    · simp only [reduceCtorEq, false_iff]
      intro hh
      have h1 := hh 0 (by decide)
      have h2 := hh 2 (by decide)
      rcases h with h | h
      · exact absurd h2 (not_le.2 h)
      · rw [hc] at h; exact absurd h1 (not_le.2 h)
    · push Not at h
      simp only [true_iff]
      intro j hj
      fin_cases j
      · show dotv r 1 0 ≤ _
        rw [hc]; exact h.2
      · exact absurd rfl hj
      · exact h.1
  · dsimp only
    rw [if_neg (by norm_num), if_neg (by norm_num)]
    split_ifs with h
    · simp only [reduceCtorEq, false_iff]
      intro hh
      have h1 := hh 0 (by decide)
      have h2 := hh 1 (by decide)
      rcases h with h | h
      · rw [hc] at h; exact absurd h2 (not_le.2 h)
      · rw [hc] at h; exact absurd h1 (not_le.2 h)
    · push Not at h
      simp only [true_iff]
      intro j hj
      fin_cases j
      · show dotv r 2 0 ≤ _
        rw [hc]; exact h.2
      · show dotv r 2 1 ≤ _
        rw [hc]; exact h.1
      · exact absurd rfl hj

/-- C64. The test has no absolute value: a two dimensional hexagonal cell of any size is
accepted, although its lattice vectors make an angle of 120 degrees. -/
theorem C64_hexagonal_accepted (p : Params) (n : Fin 2) (hp : p 0 ≠ 0) :
    checkVectors2 (Lat2.hexagonal.rBasis p) = .ok () ∧ ¬ Perp (Lat2.hexagonal.rBasis p) n := by
  have hd : dotv (Lat2.hexagonal.rBasis p) 0 1 = - (p 0 ^ 2) / 2 := by
    simp [dotv, Lat2.rBasis]
    ring
  have hd' : dotv (Lat2.hexagonal.rBasis p) 1 0 = - (p 0 ^ 2) / 2 := by
    simp [dotv, Lat2.rBasis]
    ring
  have hpos : 0 < p 0 ^ 2 := by positivity
  constructor
  · rw [C64_check2_partial, hd]
    norm_num
    linarith
  · intro h
    fin_cases n
    · have := h 1 (by decide)
      simp only [Fin.zero_eta] at this
      rw [hd] at this
      linarith
    · have := h 0 (by decide)
      simp only [Fin.mk_one] at this
      rw [hd'] at this
      linarith

/-- C64. A monoclinic cell with an obtuse angle is accepted for every normal. -/
theorem C64_monoclinic_accepted (p : Params) (n : Fin 3) (h0 : 0 < p 0) (h2 : 0 < p 2)
    (hc : Real.cos (p 3) < 0) :
    checkVectors3 n.val (Lat3.monoclinic.rBasis p) = .ok () ∧
      (n ≠ 1 → ¬ Perp (Lat3.monoclinic.rBasis p) n) := by
  have hneg : p 0 * (p 2 * Real.cos (p 3)) < 0 := mul_neg_of_pos_of_neg h0 (mul_neg_of_pos_of_neg h2 hc)
  constructor
  · rw [C64_check3_partial]
    intro j hj
    fin_cases n <;> fin_cases j <;>
      simp [dotv, Lat3.rBasis, Fin.sum_univ_three] at hj ⊢ <;> norm_num <;> linarith
  · intro hn hP
    fin_cases n
    · have := hP 2 (by decide)
      simp [dotv, Lat3.rBasis, Fin.sum_univ_three] at this
      rcases this with h | h | h <;> linarith
    · exact hn rfl
    · have := hP 0 (by decide)
      simp [dotv, Lat3.rBasis, Fin.sum_univ_three] at this
      rcases this with (h | h) | h <;> linarith

/-- Acceptance of the lattice vectors does not mean that the walls are perpendicular to the
normal. -/
theorem C64_check_violated :
    ¬ ∀ (r : BasisVecs 2), checkVectors2 r = .ok () → |dotv r 0 1| ≤ 1e-8 := by
  intro h
  have hx := C64_hexagonal_accepted (fun _ => 1) 0 one_ne_zero
  have h1 := h _ hx.1
  have hd : dotv (Lat2.hexagonal.rBasis fun _ => 1) 0 1 = -(1 / 2) := by
    simp [dotv, Lat2.rBasis]
  rw [hd] at h1
  norm_num at h1

/-! ## Triclinic cells with normal 0 -/

/-- A triclinic cell with a right angle between the first lattice vector and the two others. -/
def triP : Params := fun i => if i = 3 ∨ i = 5 then Real.pi / 2 else if i = 4 then Real.pi / 6 else 1

/-- The same cell with another azimuthal angle `phi` (parameter 3). -/
def triQ : Params := fun i => if i = 3 then 0 else triP i

/-- C64. A triclinic film with normal 0 leaves parameter 3 flexible.  That parameter is the
azimuthal angle `phi` of the third lattice vector; changing it tilts the walls. -/
theorem C64_triclinic_violated :
    ∃ u, flexible3 .triclinic 0 true 6 (fun _ => true) = .ok u ∧ VaryOnly u triP triQ ∧
      volume3 (Lat3.triclinic.rBasis triP) ≠ 0 ∧ Perp (Lat3.triclinic.rBasis triP) 0 ∧
      ¬ Perp (Lat3.triclinic.rBasis triQ) 0 := by
  refine ⟨fun j => if (j : Int) = 0 + 3 then true
      else setFalse (setFalse (setFalse (fun _ => true) 3) 4) 5 j, rfl, ?_, ?_, ?_, ?_⟩
  · intro i hi
    fin_cases i <;> simp [triQ, triP] at hi ⊢
  · simp [volume3, Lat3.rBasis, triP, Real.cos_pi_div_six, Real.sin_pi_div_six]
  · rw [perp3_0]
    simp [dotv, Lat3.rBasis, triP, Fin.sum_univ_three]
  · rw [perp3_0]
    simp [dotv, Lat3.rBasis, triP, triQ, Fin.sum_univ_three, Real.sin_pi_div_six]

/-! ## Cases -/

/-- An oblique cell with a right angle: the angle is turned off, and changing both lengths keeps
the walls perpendicular. -/
example : ∃ u, flexible2 .oblique 1 true 3 (fun _ => true) = .ok u ∧
    VaryOnly u (fun i => if i = 2 then Real.pi / 2 else 1)
      (fun i => if i = 2 then Real.pi / 2 else if i = 0 then 2 else if i = 1 then 5 else 1) ∧
    Perp (Lat2.oblique.rBasis fun i => if i = 2 then Real.pi / 2 else 1) 1 := by
  refine ⟨setFalse (fun _ => true) 2, rfl, ?_, ?_⟩
  · intro i hi
    fin_cases i <;> simp [setFalse] at hi ⊢
  · intro j hj
    fin_cases j
    · simp [dotv, Lat2.rBasis]
    · exact absurd rfl hj

/-- A triclinic cell with normal 2 meets the hypotheses of `C64_perp3_partial`. -/
example : ∃ u, flexible3 .triclinic 2 false 6 (fun _ => true) = .ok u ∧
    u 5 = true ∧ u 3 = false ∧ u 4 = false ∧ u 2 = false ∧ u 0 = true ∧
    (∀ x : ℝ, VaryOnly u (fun i => if i = 5 then Real.pi / 2 else if i = 4 then 0 else 1)
      (fun i => if i = 5 then x else if i = 4 then 0 else 1)) ∧
    Perp (Lat3.triclinic.rBasis fun i => if i = 5 then Real.pi / 2 else if i = 4 then 0 else 1) 2 := by
  refine ⟨_, rfl, rfl, rfl, rfl, rfl, rfl, ?_, ?_⟩
  · intro x i hi
    fin_cases i <;> simp [setFalse] at hi ⊢
  · rw [perp3_2]
    simp [dotv, Lat3.rBasis, Fin.sum_univ_three]

example : checkVectors2 (Lat2.square.rBasis fun _ => 3) = .ok () := by
  rw [C64_check2_partial]
  simp [dotv, Lat2.rBasis]
  norm_num

end

end Verif.Film
