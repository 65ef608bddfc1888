import Verif.Fts.Eigen
import Verif.Tac
import Mathlib.LinearAlgebra.Matrix.NonsingularInverse

/-!
# Lemmas on the projected chi matrix
-/

set_option autoImplicit false
set_option linter.unusedSectionVars false

namespace Verif.Fts

open Finset

variable {m n : Nat}

/-- Contract of `gsl_eigen_symmv`: orthonormal eigenvectors. -/
structure EigOk (A : Mat m) (vals : MVec m) (vecs : Mat m) : Prop where
  eig : ∀ i k, ∑ l, A k l * vecs i l = vals i * vecs i k
  ortho : ∀ i j, ∑ k, vecs i k * vecs j k = if i = j then 1 else 0

theorem nM_pos (m : Nat) : 0 < nM m := by unfold nM; positivity

theorem nM_ne (m : Nat) : nM m ≠ 0 := (nM_pos m).ne'

theorem sum_one (m : Nat) : ∑ _k : Fin (m + 1), (1 : ℝ) = nM m := by simp [nM]

theorem projP_eq (i j : Fin (m + 1)) : projP m i j = (if j = i then 1 else 0) - 1 / nM m := by
  unfold projP
  split <;> ring

theorem proj_apply (x : MVec m) (i : Fin (m + 1)) :
    ∑ j, projP m i j * x j = x i - (∑ j, x j) / nM m := by
  simp only [projP_eq, sub_mul, sum_sub_distrib, ite_mul, one_mul, zero_mul, sum_ite_eq', mem_univ,
    if_true]
  rw [← mul_sum]; ring

theorem proj_symm (i j : Fin (m + 1)) : projP m i j = projP m j i := by
  simp only [projP_eq, eq_comm]

theorem proj_left (x : MVec m) (j : Fin (m + 1)) :
    ∑ i, x i * projP m i j = x j - (∑ i, x i) / nM m := by
  rw [← proj_apply]
  exact sum_congr rfl fun i _ => by rw [proj_symm, mul_comm]

theorem chiPM_eq (chi : Mat m) (i j : Fin (m + 1)) :
    chiPM chi i j = ∑ k, projP m i k * ∑ l, chi k l * projP m l j := by
  simp [chiPM, chiT, accum_eq]

/-- The form of the projected matrix. -/
theorem chiPM_apply (chi : Mat m) (x : MVec m) (i : Fin (m + 1)) :
    ∑ l, chiPM chi i l * x l =
      (∑ k, chi i k * (x k - (∑ j, x j) / nM m)) -
        (∑ i', ∑ k, chi i' k * (x k - (∑ j, x j) / nM m)) / nM m := by
  have h : ∀ l, chiPM chi i l * x l = ∑ k, projP m i k * (∑ l', chi k l' * (projP m l' l * x l)) := by
    intro l
    rw [chiPM_eq, sum_mul]
    refine sum_congr rfl fun k _ => ?_
    rw [mul_assoc, sum_mul]
    congr 1
    exact sum_congr rfl fun l' _ => by ring
  simp only [h]
  rw [sum_comm]
  simp only [← mul_sum]
  have h2 : ∀ k, ∑ l, ∑ l', chi k l' * (projP m l' l * x l) =
      ∑ k', chi k k' * (x k' - (∑ j, x j) / nM m) := by
    intro k
    rw [sum_comm]
    refine sum_congr rfl fun k' _ => ?_
    rw [← mul_sum, proj_apply]
  simp only [h2]
  exact proj_apply (fun k => ∑ k', chi k k' * (x k' - (∑ j, x j) / nM m)) i

theorem chiPM_sum (chi : Mat m) (x : MVec m) : ∑ i, ∑ l, chiPM chi i l * x l = 0 := by
  simp only [chiPM_apply]
  rw [sum_sub_distrib, sum_const, card_univ, Fintype.card_fin, nsmul_eq_mul]
  rw [show ((m + 1 : Nat) : ℝ) = nM m from rfl, mul_div_cancel₀ _ (nM_ne m), sub_self]

section Basis
variable {chi : Mat m} {vals : MVec m} {vecs : Mat m}

/-- Completeness of an orthonormal set of `m + 1` vectors. -/
theorem EigOk.complete {A : Mat m} (h : EigOk A vals vecs) (i j : Fin (m + 1)) :
    ∑ k, vecs k i * vecs k j = if i = j then 1 else 0 := by
  let V : Matrix (Fin (m + 1)) (Fin (m + 1)) ℝ := Matrix.of vecs
  have h1 : V * V.transpose = 1 := by
    ext a b
    rw [Matrix.mul_apply, Matrix.one_apply]
    exact h.ortho a b
  have h2 : V.transpose * V = 1 := mul_eq_one_comm.1 h1
  have := congrFun (congrFun h2 i) j
  rw [Matrix.mul_apply, Matrix.one_apply] at this
  exact this

theorem EigOk.expand {A : Mat m} (h : EigOk A vals vecs) (x : MVec m) (i : Fin (m + 1)) :
    ∑ k, (∑ j, vecs k j * x j) * vecs k i = x i := by
  have : ∀ k, (∑ j, vecs k j * x j) * vecs k i = ∑ j, x j * (vecs k j * vecs k i) := by
    intro k
    rw [sum_mul]
    exact sum_congr rfl fun j _ => by ring
  simp only [this]
  rw [sum_comm]
  simp only [← mul_sum, h.complete]
  simp

/-- Eigenvectors of non-zero eigenvalues are orthogonal to `(1, …, 1)`. -/
theorem EigOk.sum_zero (h : EigOk (chiPM chi) vals vecs) (i : Fin (m + 1)) (hi : vals i ≠ 0) :
    ∑ k, vecs i k = 0 := by
  have h1 : ∑ k, ∑ l, chiPM chi k l * vecs i l = 0 := chiPM_sum chi (vecs i)
  simp only [h.eig, ← mul_sum] at h1
  rcases mul_eq_zero.1 h1 with h1 | h1
  · exact absurd h1 hi
  · exact h1

/-- If all other eigenvalues are non-zero, the components of an eigenvector are all equal. -/
theorem EigOk.null_const (h : EigOk (chiPM chi) vals vecs) (iN : Fin (m + 1))
    (hN : ∀ i, i ≠ iN → vals i ≠ 0) :
    (∑ k, vecs iN k) ≠ 0 ∧ ∀ j, vecs iN j = (∑ k, vecs iN k)⁻¹ := by
  have h1 : ∀ j, (∑ k, vecs iN k) * vecs iN j = 1 := by
    intro j
    have := h.expand (fun _ => 1) j
    simp only [mul_one] at this
    rw [← this, eq_comm]
    refine sum_eq_single iN (fun b _ hb => ?_) (by simp)
    rw [h.sum_zero b (hN b hb), zero_mul]
  have h0 : (∑ k, vecs iN k) ≠ 0 := by
    intro e
    have := h1 0
    rw [e, zero_mul] at this
    exact zero_ne_one this
  exact ⟨h0, fun j => eq_inv_of_mul_eq_one_right (h1 j)⟩

end Basis

/-! ## The loop over eigenpairs -/

section Loop
variable (vals : MVec m) (vecs : Mat m)

def isNull (i : Fin (m + 1)) : Prop := |vals i| < 1 / 10 ^ 8

noncomputable instance : DecidablePred (isNull vals) := fun i => by unfold isNull; infer_instance

/-- What the loop returns. -/
theorem selLoop_ok : ∀ (l : List (Fin (m + 1))) (s s' : Sel m), selLoop vals vecs l s = .ok s' →
    s'.pairs = s.pairs ++ (l.filter (fun i => ¬ isNull vals i)).map
      (fun i => (vals i, flipV (vecs i))) ∧
    s'.nNull = s.nNull + (l.filter (fun i => isNull vals i)).length ∧
    (∀ i ∈ l, ¬ isNull vals i → vals i < 0) ∧
    (∀ iN, s'.iNull = some iN → s.iNull = some iN ∨ (iN ∈ l ∧ isNull vals iN))
  | [], s, s', h => by
    simp only [selLoop, Res.ok.injEq] at h
    subst h
    simp
  | i :: is, s, s', h => by
    unfold selLoop at h
    split at h
    · rename_i hi
      split at h
      · have hi' : isNull vals i := hi
        obtain ⟨h1, h2, h3, h4⟩ := selLoop_ok is _ s' h
        refine ⟨?_, ?_, ?_, ?_⟩
        · rw [h1]; simp [hi']
        · rw [h2]; simp [hi']; omega
        · intro j hj hn
          rcases List.mem_cons.1 hj with rfl | hj
          · exact absurd hi' hn
          · exact h3 j hj hn
        · intro iN hN
          rcases h4 iN hN with h5 | ⟨h5, h6⟩
          · simp only [Option.some.injEq] at h5
            subst h5
            exact Or.inr ⟨by simp, hi'⟩
          · exact Or.inr ⟨by simp [h5], h6⟩
      · cases h
    · rename_i hi
      have hi' : ¬ isNull vals i := hi
      split at h
      · rename_i hneg
        obtain ⟨h1, h2, h3, h4⟩ := selLoop_ok is _ s' h
        refine ⟨?_, ?_, ?_, ?_⟩
        · rw [h1]; simp [hi']
        · rw [h2]; simp [hi']
        · intro j hj hn
          rcases List.mem_cons.1 hj with rfl | hj
          · exact hneg
          · exact h3 j hj hn
        · intro iN hN
          rcases h4 iN hN with h5 | ⟨h5, h6⟩
          · exact Or.inl h5
          · exact Or.inr ⟨by simp [h5], h6⟩
      · cases h

/-- When the loop returns normally. -/
theorem selLoop_succeeds : ∀ (l : List (Fin (m + 1))) (s : Sel m),
    s.nNull + (l.filter (fun i => isNull vals i)).length ≤ 1 →
    (∀ i ∈ l, ¬ isNull vals i → vals i < 0) →
    ∃ s', selLoop vals vecs l s = .ok s' ∧
      ((∃ i ∈ l, isNull vals i) → ∃ iN, s'.iNull = some iN) ∧ (s.iNull.isSome → s'.iNull.isSome)
  | [], s, _, _ => ⟨s, rfl, by simp, fun h => h⟩
  | i :: is, s, hn, hneg => by
    unfold selLoop
    by_cases hi : isNull vals i
    · have hl : s.nNull + 1 + (is.filter (fun i => isNull vals i)).length ≤ 1 := by
        simp only [List.filter_cons, hi, decide_true, if_true, List.length_cons] at hn
        omega
      rw [if_pos (show |vals i| < 1 / 10 ^ 8 from hi), if_pos (by omega)]
      obtain ⟨s', h1, h2, h3⟩ := selLoop_succeeds is ⟨s.pairs, some i, s.nNull + 1⟩ hl
        (fun j hj => hneg j (by simp [hj]))
      have h4 : s'.iNull.isSome := h3 rfl
      exact ⟨s', h1, fun _ => Option.isSome_iff_exists.1 h4, fun _ => h4⟩
    · have hl : s.nNull + (is.filter (fun i => isNull vals i)).length ≤ 1 := by
        simp only [List.filter_cons, hi, decide_false, Bool.false_eq_true, if_false] at hn
        omega
      rw [if_neg (show ¬ |vals i| < 1 / 10 ^ 8 from hi), if_pos (hneg i (by simp) hi)]
      obtain ⟨s', h1, h2, h3⟩ := selLoop_succeeds is
        ⟨s.pairs ++ [(vals i, flipV (vecs i))], s.iNull, s.nNull⟩ hl
        (fun j hj => hneg j (by simp [hj]))
      refine ⟨s', h1, ?_, h3⟩
      rintro ⟨j, hj, hjn⟩
      rcases List.mem_cons.1 hj with rfl | hj
      · exact absurd hjn hi
      · exact h2 ⟨j, hj, hjn⟩

end Loop

/-! ## Signs and norms -/

theorem flipV_eq (v : MVec m) : ∃ σ : ℝ, (σ = 1 ∨ σ = -1) ∧ flipV v = fun j => σ * v j := by
  unfold flipV
  split
  · exact ⟨-1, Or.inr rfl, by funext j; ring⟩
  · exact ⟨1, Or.inl rfl, by funext j; ring⟩

theorem normV_unit (v : MVec m) (hv : ∑ k, v k * v k = 1) : normV v = fun j => √(nM m) * v j := by
  funext j
  simp only [normV, accum_eq, hv, zero_add, div_one]
  ring

/-- A stored eigenvector is a multiple of one returned by GSL. -/
theorem normFlip (v : MVec m) (hv : ∑ k, v k * v k = 1) :
    ∃ σ : ℝ, (σ = 1 ∨ σ = -1) ∧ normV (flipV v) = fun j => σ * √(nM m) * v j := by
  obtain ⟨σ, hσ, e⟩ := flipV_eq v
  refine ⟨σ, hσ, ?_⟩
  rw [e, normV_unit]
  · funext j; ring
  · have : σ * σ = 1 := by rcases hσ with rfl | rfl <;> norm_num
    have h2 : ∀ k, σ * v k * (σ * v k) = (σ * σ) * (v k * v k) := fun k => by ring
    simp only [h2, ← mul_sum, hv, this, mul_one]

/-- The vector with equal components becomes `(1, …, 1)`. -/
theorem normFlip_const (v : MVec m) (a : ℝ) (ha : ∀ j, v j = a) (hv : ∑ k, v k * v k = 1) :
    ∀ j, normV (flipV v) j = 1 := by
  intro j
  have h1 : nM m * (a * a) = 1 := by
    rw [← hv]; simp [ha, nM]
  have habs : √(nM m) * |a| = 1 := by
    rw [← abs_of_pos (Real.sqrt_pos.2 (nM_pos m)), ← abs_mul]
    have h2 : (√(nM m) * a) ^ 2 = 1 := by
      rw [mul_pow, Real.sq_sqrt (nM_pos m).le, sq]; exact h1
    rw [← sq_abs] at h2
    nlinarith [abs_nonneg (√(nM m) * a)]
  unfold flipV
  split
  · rename_i hneg
    rw [ha] at hneg
    rw [normV_unit _ (by simpa using hv)]
    simp only [ha, ← abs_of_neg hneg]
    exact habs
  · rename_i hneg
    rw [ha, not_lt] at hneg
    rw [normV_unit _ hv]
    simp only [ha]
    rw [abs_of_nonneg hneg] at habs
    exact habs

end Verif.Fts
