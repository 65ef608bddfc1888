import Verif.Fts.EigenProps
import Verif.Thermo.Props

/-!
# C81: field theoretic simulations and self-consistent field theory agree at a saddle point

`Simulator::computeDc` and `computeHamiltonian` are written in terms of components along the
eigenvectors of the projected chi matrix, `ScftThermoTmpl::compute` in terms of monomer fields.
-/

set_option autoImplicit false
set_option linter.unusedSectionVars false

namespace Verif.Fts

open Finset

variable {m n : Nat} {chi : Mat m} {e : Eig m}

/-- Coefficients of a composition. -/
noncomputable def gam (e : Eig m) (c : MVec m) (j : Fin (m + 1)) : ℝ := (∑ i, e.vec j i * c i) / nM m

/-- Matrix element of chi. -/
noncomputable def bil (chi : Mat m) (e : Eig m) (j l : Fin (m + 1)) : ℝ :=
  ∑ i, e.vec j i * ∑ k, chi i k * e.vec l k

theorem expand (h : EigGood chi e) (c : MVec m) (i : Fin (m + 1)) :
    c i = ∑ j, gam e c j * e.vec j i := by
  have := C61_reconstruct (n := 1) h (fun i _ => c i) i 0
  simp only [wc_eq] at this
  exact this.symm

theorem vec_sum (h : EigGood chi e) (j : Fin m) : ∑ i, e.vec j.castSucc i = 0 := by
  have := h.ortho j.castSucc (Fin.last m)
  simp only [h.last, mul_one] at this
  rw [this, if_neg (Fin.castSucc_lt_last j).ne]

theorem bil_cast (h : EigGood chi e) (j l : Fin m) :
    bil chi e j.castSucc l.castSucc = if j = l then e.val l.castSucc * nM m else 0 := by
  have h1 : ∀ i, ∑ k, chi i k * e.vec l.castSucc k = e.val l.castSucc * e.vec l.castSucc i +
      (∑ i', ∑ k, chi i' k * e.vec l.castSucc k) / nM m := by
    intro i
    have h2 := h.eig l.castSucc i
    rw [chiPM_apply, vec_sum h l] at h2
    simp only [zero_div, sub_zero] at h2
    linarith
  unfold bil
  rw [sum_congr rfl fun i _ => by rw [h1 i, mul_add], sum_add_distrib, ← sum_mul, vec_sum h j,
    zero_mul, add_zero]
  have h3 : ∀ i, e.vec j.castSucc i * (e.val l.castSucc * e.vec l.castSucc i) =
      e.val l.castSucc * (e.vec j.castSucc i * e.vec l.castSucc i) := fun i => by ring
  simp only [h3, ← mul_sum, h.ortho, Fin.castSucc_inj]
  split <;> simp

theorem bil_last (h : EigGood chi e) (j : Fin (m + 1)) :
    bil chi e j (Fin.last m) = e.sc j * (nM m * nM m) := by
  unfold bil
  simp only [h.last, mul_one]
  rw [h.sc j, div_mul_cancel₀ _ (mul_ne_zero (nM_ne m) (nM_ne m))]

theorem bil_symm (hs : ∀ i j, chi i j = chi j i) (j l : Fin (m + 1)) :
    bil chi e j l = bil chi e l j := by
  unfold bil
  simp only [mul_sum]
  rw [sum_comm]
  refine sum_congr rfl fun i _ => sum_congr rfl fun k _ => ?_
  rw [hs k i]; ring

/-- `χ c` in components. -/
theorem chi_comp (h : EigGood chi e) (c : MVec m) (j : Fin (m + 1)) :
    ∑ i, e.vec j i * ∑ k, chi i k * c k = ∑ l, gam e c l * bil chi e j l := by
  have h1 : ∀ i, ∑ k, chi i k * c k = ∑ l, gam e c l * ∑ k, chi i k * e.vec l k := by
    intro i
    calc ∑ k, chi i k * c k = ∑ k, ∑ l, gam e c l * (chi i k * e.vec l k) := by
          refine sum_congr rfl fun k _ => ?_
          conv_lhs => rw [expand h c k]
          rw [mul_sum]
          exact sum_congr rfl fun l _ => by ring
      _ = ∑ l, ∑ k, gam e c l * (chi i k * e.vec l k) := sum_comm
      _ = _ := sum_congr rfl fun l _ => (mul_sum _ _ _).symm
  unfold bil
  calc ∑ i, e.vec j i * ∑ k, chi i k * c k
      = ∑ i, ∑ l, gam e c l * (e.vec j i * ∑ k, chi i k * e.vec l k) := by
        refine sum_congr rfl fun i _ => ?_
        rw [h1 i, mul_sum]
        exact sum_congr rfl fun l _ => by ring
    _ = ∑ l, ∑ i, gam e c l * (e.vec j i * ∑ k, chi i k * e.vec l k) := sum_comm
    _ = _ := sum_congr rfl fun l _ => (mul_sum _ _ _).symm

theorem gam_last (h : EigGood chi e) (c : MVec m) (hc : ∑ i, c i = 1) :
    gam e c (Fin.last m) = 1 / nM m := by
  unfold gam; simp only [h.last, one_mul, hc]

/-- Components of composition of `χ c`. -/
theorem chi_cast (h : EigGood chi e) (c : MVec m) (hc : ∑ i, c i = 1) (j : Fin m) :
    ∑ i, e.vec j.castSucc i * ∑ k, chi i k * c k =
      nM m * (e.val j.castSucc * gam e c j.castSucc + e.sc j.castSucc) := by
  have hM := nM_ne m
  rw [chi_comp h, Fin.sum_univ_castSucc, bil_last h, gam_last h c hc]
  simp only [bil_cast h, mul_ite, mul_zero, sum_ite_eq, mem_univ, if_true]
  field_simp

/-- Pressure-like component of `χ c`. -/
theorem chi_last (h : EigGood chi e) (hs : ∀ i j, chi i j = chi j i) (c : MVec m)
    (hc : ∑ i, c i = 1) :
    ∑ i, ∑ k, chi i k * c k = nM m * (nM m * ∑ j : Fin m, gam e c j.castSucc * e.sc j.castSucc
      + e.sc (Fin.last m)) := by
  have hM := nM_ne m
  have h1 := chi_comp h c (Fin.last m)
  simp only [h.last, one_mul] at h1
  rw [h1, Fin.sum_univ_castSucc, bil_last h, gam_last h c hc]
  have h2 : ∀ j : Fin m, gam e c j.castSucc * bil chi e (Fin.last m) j.castSucc =
      nM m * nM m * (gam e c j.castSucc * e.sc j.castSucc) := by
    intro j; rw [bil_symm hs, bil_last h]; ring
  simp only [h2, ← mul_sum]
  field_simp

/-- `c χ c`. -/
theorem chi_quad (h : EigGood chi e) (hs : ∀ i j, chi i j = chi j i) (c : MVec m)
    (hc : ∑ i, c i = 1) :
    ∑ i, c i * ∑ k, chi i k * c k =
      nM m * ∑ j : Fin m, e.val j.castSucc * gam e c j.castSucc ^ 2
      + 2 * nM m * (∑ j : Fin m, gam e c j.castSucc * e.sc j.castSucc) + e.sc (Fin.last m) := by
  have hM := nM_ne m
  have h1 : ∑ i, c i * ∑ k, chi i k * c k =
      ∑ j, gam e c j * ∑ i, e.vec j i * ∑ k, chi i k * c k := by
    calc ∑ i, c i * ∑ k, chi i k * c k
        = ∑ i, ∑ j, gam e c j * (e.vec j i * ∑ k, chi i k * c k) := by
          refine sum_congr rfl fun i _ => ?_
          conv_lhs => arg 1; rw [expand h c i]
          rw [sum_mul]
          exact sum_congr rfl fun l _ => by ring
      _ = ∑ j, ∑ i, gam e c j * (e.vec j i * ∑ k, chi i k * c k) := sum_comm
      _ = _ := sum_congr rfl fun l _ => (mul_sum _ _ _).symm
  rw [h1, Fin.sum_univ_castSucc]
  simp only [h.last, one_mul]
  rw [chi_last h hs c hc, gam_last h c hc]
  have h2 : ∀ j : Fin m, gam e c j.castSucc * ∑ i, e.vec j.castSucc i * ∑ k, chi i k * c k =
      nM m * (e.val j.castSucc * gam e c j.castSucc ^ 2) +
      nM m * (gam e c j.castSucc * e.sc j.castSucc) := by
    intro j; rw [chi_cast h c hc]; ring
  simp only [h2, sum_add_distrib, ← mul_sum]
  field_simp
  ring

/-- **C81**, saddle points: at a grid point where the total concentration is one, all derivatives
`d_j` computed by `computeDc` vanish exactly if the fields satisfy the self-consistency equations
`w_i = Σ_j χ_ij c_j + ξ` for some `ξ`. -/
theorem C81_saddle_point (h : EigGood chi e) (vMonomer : ℝ) (hv : vMonomer ≠ 0) (w c : Flds m n)
    (k : Fin n) (hc : ∑ i, c i k = 1) :
    (∀ j, computeDcF vMonomer e (computeWcF e w) (computeCcF e c) j k = 0) ↔
      ∃ ξ, ∀ i, w i k = (∑ l, chi i l * c l k) + ξ := by
  have hM := nM_ne m
  have hdc : ∀ j : Fin m, computeDcF vMonomer e (computeWcF e w) (computeCcF e c) j k = 0 ↔
      computeWcF e w j.castSucc k =
        computeWcF e (fun i k => ∑ l, chi i l * c l k) j.castSucc k := by
    intro j
    have h1 : computeWcF e (fun i k => ∑ l, chi i l * c l k) j.castSucc k =
        e.val j.castSucc * gam e (fun i => c i k) j.castSucc + e.sc j.castSucc := by
      rw [wc_eq, chi_cast h (fun i => c i k) hc j, mul_div_cancel_left₀ _ hM]
    have h2 : computeCcF e c j.castSucc k = nM m * gam e (fun i => c i k) j.castSucc := by
      rw [cc_eq]; unfold gam; rw [mul_div_cancel₀ _ hM]
    have hn := (h.neg j).ne
    rw [h1]
    unfold computeDcF
    rw [h2]
    constructor
    · intro h0
      have h3 := (mul_eq_zero.1 h0).resolve_left (by simp [hv])
      field_simp at h3
      rw [mul_zero] at h3
      have h4 := (mul_eq_zero.1 h3).resolve_left hM
      linarith
    · intro h0
      rw [h0]
      field_simp
      ring
  constructor
  · intro h0
    refine ⟨computeWcF e w (Fin.last m) k -
      computeWcF e (fun i k => ∑ l, chi i l * c l k) (Fin.last m) k, fun i => ?_⟩
    have r1 := C61_reconstruct h w i k
    have r2 := C61_reconstruct h (fun i k => ∑ l, chi i l * c l k) i k
    rw [Fin.sum_univ_castSucc, h.last, mul_one] at r1 r2
    rw [sum_congr rfl fun j _ => by rw [(hdc j).1 (h0 j)]] at r1
    rw [← r2, ← r1]
    ring
  · rintro ⟨ξ, hξ⟩ j
    rw [hdc j, wc_eq, wc_eq]
    congr 1
    simp only [hξ, mul_add, sum_add_distrib]
    rw [← sum_mul, vec_sum h j, zero_mul, add_zero]

/-- Species data of the thermodynamics. -/
def toThermo (s : Spec) : Thermo.Spec := ⟨s.phi, s.mu, s.len⟩

theorem lnQ_ideal (l : List Spec) (a b : ℝ) (hab : b = -a) :
    Thermo.idealSpecies (l.map toThermo) b = -lnQSpecies l a := by
  induction l generalizing a b with
  | nil => simpa [Thermo.idealSpecies, lnQSpecies] using hab
  | cons s l ih =>
    rw [List.map_cons, Thermo.idealSpecies, lnQSpecies]
    apply ih
    show (if s.phi > 1 / 10 ^ 8 then _ else _) = _
    split
    · rw [hab]; simp only [toThermo]; ring
    · exact hab

/-- **C81**, free energy: at a solution of the self-consistency equations the field theoretic
Hamiltonian of an incompressible system without mask and external field is the SCFT Helmholtz
free energy per monomer times the number of monomers in the system. -/
theorem C81_mean_field (h : EigGood chi e) (hs : ∀ i j, chi i j = chi j i)
    (hthr : ∀ i j, chi i j = 0 ∨ |chi i j| > 1 / 10 ^ 9) (hn : (n : ℝ) ≠ 0)
    (vSystem vMonomer : ℝ) (species : List Spec) (w c : Flds m n) (ξ : Fin n → ℝ)
    (hc : ∀ k, ∑ i, c i k = 1) (hw : ∀ i k, w i k = (∑ l, chi i l * c l k) + ξ k) :
    hamiltonianF vSystem vMonomer species e (computeWcF e w) =
      vSystem / vMonomer * Thermo.fHelmholtz
        { species := species.map toThermo, chi := chi, basis := false, w := w, c := c, h := none,
          phiTot := 1 } := by
  have hM := nM_ne m
  -- components of w
  have hwj : ∀ (j : Fin m) k, computeWcF e w j.castSucc k - e.sc j.castSucc =
      e.val j.castSucc * gam e (fun i => c i k) j.castSucc := by
    intro j k
    rw [wc_eq]
    simp only [hw, mul_add, sum_add_distrib]
    rw [← sum_mul, vec_sum h j, zero_mul, add_zero, chi_cast h (fun i => c i k) (hc k) j,
      mul_div_cancel_left₀ _ hM]
    ring
  have hwl : ∀ k, computeWcF e w (Fin.last m) k =
      nM m * (∑ j : Fin m, gam e (fun i => c i k) j.castSucc * e.sc j.castSucc)
        + e.sc (Fin.last m) + ξ k := by
    intro k
    rw [C61_pressure h]
    simp only [hw, sum_add_distrib]
    rw [chi_last h hs (fun i => c i k) (hc k), sum_const, card_univ, Fintype.card_fin,
      nsmul_eq_mul, show ((m + 1 : Nat) : ℝ) = nM m from rfl]
    field_simp
  -- free energy
  have hquad : ∀ k, ∑ i, w i k * c i k =
      (nM m * ∑ j : Fin m, e.val j.castSucc * gam e (fun i => c i k) j.castSucc ^ 2
      + 2 * nM m * (∑ j : Fin m, gam e (fun i => c i k) j.castSucc * e.sc j.castSucc)
      + e.sc (Fin.last m)) + ξ k := by
    intro k
    rw [← chi_quad h hs (fun i => c i k) (hc k)]
    simp only [hw, add_mul, sum_add_distrib]
    rw [← mul_sum, hc k, mul_one]
    congr 1
    exact sum_congr rfl fun i _ => mul_comm _ _
  have hf : Thermo.fHelmholtz
        { species := species.map toThermo, chi := chi, basis := false, w := w, c := c, h := none,
          phiTot := 1 } = -lnQSpecies species 0 +
      ((∑ k, -∑ i, w i k * c i k) + 1 / 2 * ∑ k, ∑ i, c i k * ∑ l, chi i l * c l k) / n := by
    unfold Thermo.fHelmholtz
    rw [Thermo.fInter_eq _ hs hthr]
    unfold Thermo.fIdeal Thermo.fExt
    simp only [lnQ_ideal species 0 0 (by simp), Thermo.average, Bool.false_eq_true, if_false,
      accum_eq, zero_add, div_one, Thermo.inner_eq, add_zero]
    rw [add_assoc, ← add_div]
    congr 3
    · simp only [← sum_neg_distrib]
      exact sum_comm
    · congr 1
      calc ∑ i, ∑ j, chi i j * ∑ k, c i k * c j k
          = ∑ i, ∑ j, ∑ k, chi i j * (c i k * c j k) :=
            sum_congr rfl fun i _ => sum_congr rfl fun j _ => mul_sum _ _ _
        _ = ∑ i, ∑ k, ∑ j, chi i j * (c i k * c j k) := sum_congr rfl fun i _ => sum_comm
        _ = ∑ k, ∑ i, ∑ j, chi i j * (c i k * c j k) := sum_comm
        _ = _ := by
          refine sum_congr rfl fun k _ => sum_congr rfl fun i _ => ?_
          rw [mul_sum]
          exact sum_congr rfl fun j _ => by ring
  rw [hf]
  unfold hamiltonianF
  simp only [accum_eq, zero_add]
  have hq : ∀ (j : Fin m) k, -(1 / 2) * nM m / e.val j.castSucc *
      (computeWcF e w j.castSucc k - e.sc j.castSucc) *
      (computeWcF e w j.castSucc k - e.sc j.castSucc) =
      -(1 / 2) * nM m * (e.val j.castSucc * gam e (fun i => c i k) j.castSucc ^ 2) := by
    intro j k
    rw [hwj j k]
    have hn := (h.neg j).ne
    field_simp
  simp only [hq, hwl, hquad, chi_quad h hs _ (hc _)]
  rw [sum_comm]
  simp only [← mul_sum, ← sum_div, sum_neg_distrib, sum_add_distrib, sum_const, card_univ,
    Fintype.card_fin, nsmul_eq_mul]
  field_simp
  ring

/-- The diblock interaction of `exChi`; a composition satisfying the hypotheses. -/
example : ∃ e : Eig 1, EigGood exChi e ∧ ∃ w : Flds 1 2, ∃ c : Flds 1 2,
    (∀ k, ∑ i, c i k = 1) ∧ (∀ i k, w i k = (∑ l, exChi i l * c l k) + 5) ∧ w 0 0 ≠ w 0 1 := by
  obtain ⟨e, he⟩ := exAnalyze
  refine ⟨e, C61_analyzeChi exEig e he, fun i k => (∑ l, exChi i l *
    (if l = 0 then (if k = 0 then 1 else 1 / 4) else (if k = 0 then 0 else 3 / 4))) + 5,
    fun l k => if l = 0 then (if k = 0 then 1 else 1 / 4) else (if k = 0 then 0 else 3 / 4),
    ?_, fun i k => rfl, ?_⟩
  · intro k
    fin_cases k <;> simp [Fin.sum_univ_two]
    norm_num
  · simp [Fin.sum_univ_two, exChi]

end Verif.Fts
