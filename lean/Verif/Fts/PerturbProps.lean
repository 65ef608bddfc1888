import Verif.Fts.EigenProps
import Mathlib.Analysis.Calculus.Deriv.Add
import Mathlib.Analysis.Calculus.Deriv.Mul

/-!
# C59: the Einstein crystal perturbation

`Simulator::computeHamiltonian` adds `perturbation().hamiltonian(H)` to `H`, and
`Simulator::computeDc` lets the perturbation change `Dc`. The specification is written with the
calculus of Mathlib: `Dc` must be the derivative of the Hamiltonian with respect to the value of a
field component at a grid point, divided by the volume per grid point.
-/

set_option autoImplicit false
set_option linter.unusedSectionVars false

namespace Verif.Fts

open Finset

variable {m n : Nat} {chi : Mat m} {e : Eig m}

noncomputable section

/-- Fields with component `j` at grid point `k` replaced. -/
def setAt (wc : Flds m n) (j : Fin (m + 1)) (k : Fin n) (t : ℝ) : Flds m n := fun i l =>
  if i = j ∧ l = k then t else wc i l

/-- Total Hamiltonian with the perturbation, `Simulator.tpp:285-290`. -/
def totalH (H0 : Flds m n → ℝ) (vSystem vMonomer lam : ℝ) (eps : Fin m → ℝ) (wc0 wc : Flds m n) : ℝ :=
  H0 wc + ecPerturbation lam (ecHamiltonian vSystem vMonomer eps wc wc0) (H0 wc)

/-- **C59**: the perturbed Hamiltonian interpolates linearly between the Einstein crystal
(`lambda = 0`) and the unperturbed system (`lambda = 1`). -/
theorem C59_interpolation (H0 : Flds m n → ℝ) (vSystem vMonomer lam : ℝ) (eps : Fin m → ℝ)
    (wc0 wc : Flds m n) :
    totalH H0 vSystem vMonomer lam eps wc0 wc =
      lam * H0 wc + (1 - lam) * (vSystem / vMonomer / n * ∑ j : Fin m, ∑ k : Fin n,
        nM m / (2 * eps j) * (wc j.castSucc k - wc0 j.castSucc k) ^ 2) := by
  unfold totalH ecPerturbation ecHamiltonian
  have : ∀ j k, nM m / (2 * eps j) * (wc j.castSucc k - wc0 j.castSucc k)
      * (wc j.castSucc k - wc0 j.castSucc k) =
      nM m / (2 * eps j) * (wc j.castSucc k - wc0 j.castSucc k) ^ 2 := fun j k => by ring
  simp only [accum_eq, zero_add, this]
  ring

/-- **C59**: `df()` is the derivative of the perturbed Hamiltonian with respect to `lambda`. -/
theorem C59_df (H0 : Flds m n → ℝ) (vSystem vMonomer lam : ℝ) (eps : Fin m → ℝ)
    (wc0 wc : Flds m n) :
    HasDerivAt (fun l => totalH H0 vSystem vMonomer l eps wc0 wc)
      (ecDf (ecHamiltonian vSystem vMonomer eps wc wc0) (H0 wc)) lam := by
  unfold totalH ecPerturbation ecDf
  generalize ecHamiltonian vSystem vMonomer eps wc wc0 = a
  generalize H0 wc = b
  have h := (((hasDerivAt_id lam).const_sub 1).mul_const (a - b)).const_add b
  simp only [id_eq] at h
  exact h.congr_deriv (by ring)

/-- Sum of squares as a function of one value. -/
theorem sumSq_deriv (c : Fin m → ℝ) (a : Fin m → Fin n → ℝ) (wc : Flds m n) (j : Fin m) (k : Fin n)
    (t : ℝ) :
    HasDerivAt (fun t => ∑ i : Fin m, ∑ l : Fin n,
        c i * (setAt wc j.castSucc k t i.castSucc l - a i l)
          * (setAt wc j.castSucc k t i.castSucc l - a i l))
      (2 * c j * (t - a j k)) t := by
  have h1 : ∀ i l, HasDerivAt (fun t => c i * (setAt wc j.castSucc k t i.castSucc l - a i l)
      * (setAt wc j.castSucc k t i.castSucc l - a i l))
      (if i = j ∧ l = k then 2 * c j * (t - a j k) else 0) t := by
    intro i l
    by_cases h : i = j ∧ l = k
    · obtain ⟨rfl, rfl⟩ := h
      simp only [setAt, and_self, if_true]
      have h0 := (hasDerivAt_id t).sub_const (a i l)
      have := (h0.const_mul (c i)).mul h0
      simp only [id_eq] at this
      exact this.congr_deriv (by ring)
    · have h' : ¬ (i.castSucc = j.castSucc ∧ l = k) := by simpa [Fin.castSucc_inj] using h
      simp only [setAt, h', h, if_false]
      exact hasDerivAt_const _ _
  have h2 := HasDerivAt.fun_sum (u := (univ : Finset (Fin m))) (x := t) fun i _ =>
    HasDerivAt.fun_sum (u := (univ : Finset (Fin n))) (x := t) fun l _ => h1 i l
  refine h2.congr_deriv ?_
  rw [sum_eq_single j, sum_eq_single k]
  · simp
  · intro l _ hl; simp [hl]
  · simp
  · intro i _ hi; simp [hi]
  · simp

theorem setAt_self (wc : Flds m n) (j : Fin (m + 1)) (k : Fin n) : setAt wc j k (wc j k) = wc := by
  funext i l
  unfold setAt
  split
  · rename_i h; rw [h.1, h.2]
  · rfl

/-- Derivative of the Einstein crystal energy. -/
theorem ec_deriv (vSystem vMonomer : ℝ) (eps : Fin m → ℝ) (wc0 wc : Flds m n) (j : Fin m)
    (k : Fin n) :
    HasDerivAt (fun t => ecHamiltonian vSystem vMonomer eps (setAt wc j.castSucc k t) wc0)
      (vSystem / n * (nM m / (eps j * vMonomer) * (wc j.castSucc k - wc0 j.castSucc k)))
      (wc j.castSucc k) := by
  have h := ((sumSq_deriv (fun i => nM m / (2 * eps i)) (fun i l => wc0 i.castSucc l) wc j k
    (wc j.castSucc k)).div_const (n : ℝ)).mul_const (vSystem / vMonomer)
  unfold ecHamiltonian
  simp only [accum_eq, zero_add]
  refine h.congr_deriv ?_
  simp only [div_eq_mul_inv, mul_inv]
  ring

/-- **C59**: if `dc` is the derivative of the unperturbed Hamiltonian, then after `incrementDc` it
is the derivative of the perturbed Hamiltonian, for every component and grid point. -/
theorem C59_derivative (H0 : Flds m n → ℝ) (vSystem vMonomer lam : ℝ) (eps : Fin m → ℝ)
    (wc0 wc : Flds m n) (dc : Fin m → Fin n → ℝ)
    (h : ∀ j k, HasDerivAt (fun t => H0 (setAt wc j.castSucc k t)) (vSystem / n * dc j k)
      (wc j.castSucc k)) (j : Fin m) (k : Fin n) :
    HasDerivAt (fun t => totalH H0 vSystem vMonomer lam eps wc0 (setAt wc j.castSucc k t))
      (vSystem / n * incrementDc vMonomer lam eps wc wc0 dc j k) (wc j.castSucc k) := by
  have h2 := ((h j k).add (((ec_deriv vSystem vMonomer eps wc0 wc j k).sub (h j k)).const_mul
    (1 - lam)))
  unfold totalH ecPerturbation incrementDc
  exact h2.congr_deriv (by ring)

/-- **C59**: the field contribution to the Hamiltonian has the derivative used by `computeDc`; the
rest of `Dc` is the concentration `cc / vMonomer`. -/
theorem C59_field_derivative (vSystem vMonomer : ℝ) (species : List Spec) (e : Eig m)
    (wc cc : Flds m n) (j : Fin m) (k : Fin n) :
    HasDerivAt (fun t => hamiltonianF vSystem vMonomer species e (setAt wc j.castSucc k t))
      (vSystem / n * (computeDcF vMonomer e wc cc j k - cc j.castSucc k / vMonomer))
      (wc j.castSucc k) := by
  have h := (((((sumSq_deriv (fun i => -(1 / 2) * nM m / e.val i.castSucc)
    (fun i _ => e.sc i.castSucc) wc j k (wc j.castSucc k)).div_const (n : ℝ)).add_const
    (1 / 2 * e.sc (Fin.last m))).const_mul (vSystem / vMonomer)).const_add
    ((-1) * (vSystem / vMonomer) * (lnQSpecies species 0 +
      ∑ i, wc (Fin.last m) i / (n : ℝ))))
  have hl : ∀ t i, setAt wc j.castSucc k t (Fin.last m) i = wc (Fin.last m) i := by
    intro t i
    simp [setAt, (Fin.castSucc_lt_last j).ne']
  unfold hamiltonianF computeDcF
  simp only [accum_eq, zero_add, hl]
  refine h.congr_deriv ?_
  simp only [div_eq_mul_inv]
  ring

/-- **C59**: the default spring constants are accepted by `setup` after every successful
`analyzeChi`. -/
theorem C59_default {vals : MVec m} {vecs : Mat m} (hok : analyze_chi chi vals vecs = .ok e) :
    ∀ j, 0 < ecDefaultEps e j := by
  intro j
  obtain ⟨ord, -, hnn, -, hneg, hval, -⟩ := analyze_parts e hok
  have := hneg _ (hnn j)
  unfold ecDefaultEps
  rw [hval j]; linarith

/-- Example: the two-monomer system of `EigenProps` has an eigen decomposition with positive
default spring constants. -/
example : ∃ e, analyze_chi exChi exVals exVecs = .ok e ∧ ∀ j, 0 < ecDefaultEps e j := by
  obtain ⟨e, he⟩ := exAnalyze
  exact ⟨e, he, C59_default he⟩

/-- Example: the hypothesis of `C59_derivative` holds for the Hamiltonian of ideal non-interacting
particles (`cc = 0`), so that the derivative of the perturbed Hamiltonian follows. -/
example (e : Eig 1) (wc wc0 : Flds 1 4) (k : Fin 4) :
    HasDerivAt (fun t => totalH (hamiltonianF 2 1 [] e) 2 1 (1 / 3) (fun _ => 5) wc0
        (setAt wc 0 k t))
      (2 / (4 : Nat) * incrementDc 1 (1 / 3) (fun _ => 5) wc wc0
        (computeDcF 1 e wc (fun _ _ => 0)) 0 k) (wc 0 k) :=
  C59_derivative _ 2 1 (1 / 3) _ wc0 wc _ (fun j k => by
    have := C59_field_derivative 2 1 [] e wc (fun _ _ => 0) j k
    simpa using this) 0 k

/-- **C59**: with the default spring constants and the reference components `sc` the Einstein
crystal energy is the quadratic field energy: the difference to the Hamiltonian contains no
component of composition. -/
theorem C59_default_energy (vSystem vMonomer : ℝ) (species : List Spec) (e : Eig m)
    (wc : Flds m n) :
    hamiltonianF vSystem vMonomer species e wc
      - ecHamiltonian vSystem vMonomer (ecDefaultEps e) wc (fun j _ => e.sc j) =
    -(vSystem / vMonomer) * (lnQSpecies species 0 + (∑ k, wc (Fin.last m) k) / n)
      + vSystem / vMonomer * (1 / 2 * e.sc (Fin.last m)) := by
  unfold hamiltonianF ecHamiltonian ecDefaultEps
  simp only [accum_eq, zero_add, ← sum_div]
  have : ∀ (j : Fin m) (k : Fin n), nM m / (2 * (-1 * e.val j.castSucc)) *
      (wc j.castSucc k - e.sc j.castSucc) * (wc j.castSucc k - e.sc j.castSucc) =
      -(1 / 2) * nM m / e.val j.castSucc *
      (wc j.castSucc k - e.sc j.castSucc) * (wc j.castSucc k - e.sc j.castSucc) := by
    intro j k
    simp only [div_eq_mul_inv, mul_inv]
    ring
  simp only [this]
  ring

end

end Verif.Fts
