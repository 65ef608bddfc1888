import Verif.Ana.Deriv
import Verif.Fts.EigenProps
import Verif.Tac
import Mathlib.Analysis.SpecialFunctions.Log.Deriv
import Mathlib.Analysis.Calculus.ParametricIntegral
import Mathlib.MeasureTheory.Integral.Bochner.Basic

/-!
# C105: derivatives of the free energy
-/

set_option autoImplicit false
set_option linter.unusedSectionVars false

namespace Verif.Ana

open Verif.Fts Finset Filter Topology

variable {m n : Nat}

/-- Interaction parameters of two monomer types. -/
def chi2 (a x b : ℝ) : Mat 1 := fun i j => if i = 0 then (if j = 0 then a else x) else (if j = 0 then x else b)

/-- Mean square of the exchange field, relative to its saddle for a homogeneous state. -/
noncomputable def meanSq (a b : ℝ) (w : Fts.Flds 1 n) : ℝ :=
  (∑ i, ((w 0 i - w 1 i) / 2 - (a - b) / 4) ^ 2) / n

theorem eig_two {a x b : ℝ} {e : Eig 1} (h : EigGood (chi2 a x b) e) :
    e.val 0 = (a + b) / 2 - x ∧ (∀ i, e.vec 1 i = 1) ∧ (e.vec 0 0 = 1 ∨ e.vec 0 0 = -1) ∧
      e.vec 0 1 = -e.vec 0 0 ∧ e.sc 0 = e.vec 0 0 * ((a - b) / 4) ∧ e.sc 1 = (a + 2 * x + b) / 4 := by
  have hl : ∀ i, e.vec 1 i = 1 := h.last
  have h01 := h.ortho 0 1
  have h00 := h.ortho 0 0
  have he := h.eig 0 0
  have s0 := h.sc 0
  have s1 := h.sc 1
  simp only [Fin.sum_univ_succ (n := 1), Fin.sum_univ_one, Fin.succ_zero_eq_one, hl, nM, chi2, chiPM, chiT, accum_eq, projP] at h01 h00 he s0 s1
  norm_num at h01 h00 he s0 s1
  have hv : e.vec 0 1 = -e.vec 0 0 := by linarith
  rw [hv] at h00 he s0
  have hsq : e.vec 0 0 * e.vec 0 0 = 1 := by linarith
  have hpm : e.vec 0 0 = 1 ∨ e.vec 0 0 = -1 := by
    rcases mul_self_eq_one_iff.1 hsq with h | h
    · exact Or.inl h
    · exact Or.inr h
  refine ⟨?_, hl, hpm, hv, ?_, ?_⟩
  · rcases hpm with h | h <;> rw [h] at he <;> linarith
  · rw [s0]; ring
  · rw [s1]; ring

theorem ham_split (V v : ℝ) (species : List Spec) (e : Eig m) (wc : Fts.Flds m n) :
    hamiltonianF V v species e wc =
      -(V / v) * (lnQSpecies species 0 + (∑ i, wc (Fin.last m) i) / n) + fieldHam V v e wc := by
  unfold hamiltonianF fieldHam
  simp only [accum_eq]
  rw [← Finset.sum_div]
  ring

/-- Field Hamiltonian of two monomer types. -/
theorem fieldHam_two {a x b : ℝ} {e : Eig 1} (h : EigGood (chi2 a x b) e) (V v : ℝ) (w : Fts.Flds 1 n) :
    fieldHam V v e (computeWcF e w) =
      V / v * (-(meanSq a b w / ((a + b) / 2 - x)) + (a + 2 * x + b) / 8) := by
  obtain ⟨h1, h2, h3, h4, h5, h6⟩ := eig_two h
  have hwc : ∀ i, computeWcF e w 0 i - e.sc 0 = e.vec 0 0 * ((w 0 i - w 1 i) / 2 - (a - b) / 4) := by
    intro i
    rw [wc_eq]
    simp only [Fin.sum_univ_succ (n := 1), Fin.sum_univ_one, Fin.succ_zero_eq_one, nM, h4, h5]
    push_cast
    ring
  have hsq : ∀ t : ℝ, e.vec 0 0 * t * (e.vec 0 0 * t) = t ^ 2 := by
    intro t
    rcases h3 with h | h <;> rw [h] <;> ring
  unfold fieldHam meanSq
  simp only [accum_eq, Fin.sum_univ_one]
  have h0 : (0 : Fin 1).castSucc = (0 : Fin (1 + 1)) := rfl
  have hl : Fin.last 1 = (1 : Fin (1 + 1)) := rfl
  rw [h0, hl, h1, h6]
  simp only [mul_assoc, hwc]
  simp only [← mul_assoc]
  have hs : ∀ i : Fin n, (-(1 / 2) * nM 1 / ((a + b) / 2 - x)) * e.vec 0 0 * ((w 0 i - w 1 i) / 2 - (a - b) / 4) *
      e.vec 0 0 * ((w 0 i - w 1 i) / 2 - (a - b) / 4) =
      -(1 / ((a + b) / 2 - x)) * ((w 0 i - w 1 i) / 2 - (a - b) / 4) ^ 2 := by
    intro i
    have := hsq ((w 0 i - w 1 i) / 2 - (a - b) / 4)
    have hn : nM 1 = 2 := by norm_num [nM]
    rw [hn, ← this]
    ring
  simp only [hs]
  rw [← Finset.mul_sum]
  ring

/-- The pressure field does not depend on the interaction parameters. -/
theorem pressure_two {a x b : ℝ} {e : Eig 1} (h : EigGood (chi2 a x b) e) (w : Fts.Flds 1 n) (i : Fin n) :
    computeWcF e w (Fin.last 1) i = (w 0 i + w 1 i) / 2 := by
  obtain ⟨_, h2, _⟩ := eig_two h
  rw [wc_eq]
  have hl : Fin.last 1 = (1 : Fin (1 + 1)) := rfl
  simp only [Fin.sum_univ_succ (n := 1), Fin.sum_univ_one, Fin.succ_zero_eq_one, nM, hl, h2]
  push_cast
  ring

/-- Hamiltonian of two monomer types. -/
theorem ham_two {a x b : ℝ} {e : Eig 1} (h : EigGood (chi2 a x b) e) (V v : ℝ) (species : List Spec)
    (w : Fts.Flds 1 n) :
    hamiltonianF V v species e (computeWcF e w) =
      -(V / v) * (lnQSpecies species 0 + (∑ i, (w 0 i + w 1 i) / 2) / n) +
        V / v * (-(meanSq a b w / ((a + b) / 2 - x)) + (a + 2 * x + b) / 8) := by
  rw [ham_split, fieldHam_two h]
  simp only [pressure_two h]

/-- The simulator analyses the interaction parameters successfully for all values of chi near `χ` (C61 gives
conditions for this). -/
def Analysed (a b χ : ℝ) (e : ℝ → Eig 1) : Prop :=
  ∀ᶠ x in 𝓝 χ, ∃ vals vecs, EigOk (chiPM (chi2 a x b)) vals vecs ∧ analyze_chi (chi2 a x b) vals vecs = .ok (e x)

theorem Analysed.good {a b χ : ℝ} {e : ℝ → Eig 1} (h : Analysed a b χ e) :
    ∀ᶠ x in 𝓝 χ, EigGood (chi2 a x b) (e x) :=
  h.mono fun _ ⟨_, _, h1, h2⟩ => C61_analyzeChi h1 _ h2

/-- Derivative of the Hamiltonian and of the normalisation of the functional integral with respect to chi. -/
theorem ham_deriv {a b χ : ℝ} {e : ℝ → Eig 1} (h : Analysed a b χ e) (hχ : (a + b) / 2 < χ) (V v : ℝ)
    (species : List Spec) (w : Fts.Flds 1 n) :
    HasDerivAt (fun x => hamiltonianF V v species (e x) (computeWcF (e x) w) +
        (n : ℝ) / 2 * Real.log (x - (a + b) / 2))
      (V / v * (-(meanSq a b w / (χ - (a + b) / 2) ^ 2) + 1 / 4) + (n : ℝ) / (2 * (χ - (a + b) / 2))) χ := by
  have hp : χ - (a + b) / 2 ≠ 0 := by linarith
  have hm : (a + b) / 2 - χ ≠ 0 := by
    intro h'
    exact hp (by linarith)
  have h1 : HasDerivAt (fun x : ℝ => x - (a + b) / 2) 1 χ := (hasDerivAt_id χ).sub_const _
  have h2 := (h1.log hp).const_mul ((n : ℝ) / 2)
  have h3 : HasDerivAt (fun x : ℝ => (x - (a + b) / 2)⁻¹) (-1 / (χ - (a + b) / 2) ^ 2) χ := h1.inv hp
  have h4 : HasDerivAt (fun x : ℝ => (a + 2 * x + b) / 8) (2 * 1 / 8) χ := by
    have := (((hasDerivAt_id χ).const_mul 2).const_add a).add_const b
    exact this.div_const 8
  have h5 := (((h3.const_mul (meanSq a b w)).add h4).const_mul (V / v)).const_add
    (-(V / v) * (lnQSpecies species 0 + (∑ i, (w 0 i + w 1 i) / 2) / n))
  have h6 := h5.add h2
  have hev : (fun x => hamiltonianF V v species (e x) (computeWcF (e x) w) +
      (n : ℝ) / 2 * Real.log (x - (a + b) / 2)) =ᶠ[𝓝 χ]
      fun x => (-(V / v) * (lnQSpecies species 0 + (∑ i, (w 0 i + w 1 i) / 2) / n) +
        V / v * (meanSq a b w * (x - (a + b) / 2)⁻¹ + (a + 2 * x + b) / 8)) +
        (n : ℝ) / 2 * Real.log (x - (a + b) / 2) := by
    filter_upwards [h.good] with x hx
    rw [ham_two hx]
    congr 3
    rw [← neg_sub x, div_neg, neg_neg, div_eq_mul_inv]
  refine (h6.congr_of_eventuallyEq hev).congr_deriv ?_
  field_simp
  ring

/-- C105: for two monomer types whose diagonal interaction parameters cancel (in particular are zero),
`ChiDerivative` is the derivative with respect to chi, at fixed fields, of the Hamiltonian and the normalisation
`(n/2) ln chi` of the functional integral. Any fields, mixture, mesh size and volumes. -/
theorem C105_chi_partial {a b χ : ℝ} {e : ℝ → Eig 1} (h : Analysed a b χ e) (hab : a + b = 0) (hχ : 0 < χ) (V v : ℝ)
    (hV : V ≠ 0) (hv : v ≠ 0) (species : List Spec) (w : Fts.Flds 1 n) :
    HasDerivAt (fun x => hamiltonianF V v species (e x) (computeWcF (e x) w) + (n : ℝ) / 2 * Real.log x)
      (chiDerivative V v n χ (fieldHam V v (e χ) (computeWcF (e χ) w)) ((e χ).sc 1)) χ := by
  have hd := ham_deriv h (by rw [hab]; simpa using hχ) V v species w
  have hg := h.good.self_of_nhds
  rw [hab] at hd
  simp only [zero_div, sub_zero] at hd
  refine hd.congr_deriv ?_
  unfold chiDerivative
  rw [fieldHam_two hg, (eig_two hg).2.2.2.2.2, hab]
  have : (a + 2 * χ + b) = 2 * χ := by linarith
  rw [this]
  dsimp only
  field_simp
  ring

/-- C105: exact error for other diagonal parameters, with `s = (chi_AA + chi_BB)/2`. -/
theorem C105_chi_error {a b χ : ℝ} {e : ℝ → Eig 1} (h : Analysed a b χ e) (hs : (a + b) / 2 < χ) (h0 : χ ≠ 0)
    (V v : ℝ) (hV : V ≠ 0) (hv : v ≠ 0) (species : List Spec) (w : Fts.Flds 1 n) :
    chiDerivative V v n χ (fieldHam V v (e χ) (computeWcF (e χ) w)) ((e χ).sc 1) -
      deriv (fun x => hamiltonianF V v species (e x) (computeWcF (e x) w) +
        (n : ℝ) / 2 * Real.log (x - (a + b) / 2)) χ =
    (a + b) / 2 / (χ * (χ - (a + b) / 2)) *
      (V / v * meanSq a b w / (χ - (a + b) / 2) - (n : ℝ) / 2) := by
  rw [(ham_deriv h hs V v species w).deriv]
  have hg := h.good.self_of_nhds
  unfold chiDerivative
  rw [fieldHam_two hg, (eig_two hg).2.2.2.2.2]
  have hp : χ - (a + b) / 2 ≠ 0 := by linarith
  have e1 : (a + b) / 2 - χ = -(χ - (a + b) / 2) := by ring
  rw [e1, div_neg, neg_neg]
  dsimp only
  generalize hq : χ - (a + b) / 2 = q at *
  have hs' : (a + b) / 2 = χ - q := by linarith
  have hs'' : (a + 2 * χ + b) = 4 * χ - 2 * q := by linarith
  rw [hs', hs'']
  field_simp
  ring

/-- C105 violated during a ramp of chi: the Hamiltonian is that of the fields for the old chi (C57), the value
of chi is the new one. Exact difference from the derivative at the new chi. -/
theorem C105_ramp_violated {χ χ' : ℝ} {e e' : Eig 1} (h : EigGood (chi2 0 χ 0) e) (h' : EigGood (chi2 0 χ' 0) e')
    (h0 : χ ≠ 0) (h0' : χ' ≠ 0) (V v : ℝ) (hV : V ≠ 0) (hv : v ≠ 0) (w : Fts.Flds 1 n) :
    chiDerivative V v n χ' (fieldHam V v e (computeWcF e w)) (e'.sc 1) -
      chiDerivative V v n χ' (fieldHam V v e' (computeWcF e' w)) (e'.sc 1) =
    V / v * ((χ - χ') * (meanSq 0 0 w / (χ * χ') - 1 / 4) / χ') := by
  unfold chiDerivative
  rw [fieldHam_two h, fieldHam_two h', (eig_two h').2.2.2.2.2]
  have e1 : ((0 : ℝ) + 0) / 2 - χ = -χ := by ring
  have e2 : ((0 : ℝ) + 0) / 2 - χ' = -χ' := by ring
  rw [e1, e2]
  dsimp only
  field_simp
  ring

/-- C105: with a perturbation the Hamiltonian is the interpolation between Einstein crystal and unperturbed
system, so that its derivative with respect to `lambda` is their difference (`PerturbationDerivative`). -/
theorem C105_perturbation (V v : ℝ) (species : List Spec) (e : Eig m) (wc : Fts.Flds m n) (lam : ℝ)
    (eps : Fin m → ℝ) (wc0 : Fts.Flds m n) :
    totalHam V v species e wc (some (lam, eps, wc0)) =
        lam * totalHam V v species e wc none + (1 - lam) * ecHamiltonian V v eps wc wc0 ∧
      HasDerivAt (fun x => totalHam V v species e wc (some (x, eps, wc0)))
        (totalHam V v species e wc none - ecHamiltonian V v eps wc wc0) lam := by
  have h : ∀ x, totalHam V v species e wc (some (x, eps, wc0)) =
      x * totalHam V v species e wc none + (1 - x) * ecHamiltonian V v eps wc wc0 := by
    intro x
    unfold totalHam ecPerturbation
    dsimp only
    ring
  refine ⟨h lam, ?_⟩
  simp only [h]
  have h1 := (hasDerivAt_id lam).mul_const (totalHam V v species e wc none)
  have h2 := ((hasDerivAt_id lam).const_sub 1).mul_const (ecHamiltonian V v eps wc wc0)
  have h3 := h1.add h2
  simp only [id_eq, one_mul, neg_mul, ← sub_eq_add_neg] at h3
  exact h3

/-- C105: `ConcentrationDerivative` is the derivative of the Hamiltonian (with or without an Einstein crystal
perturbation) and of the normalisation `-(n/2) ln C` with respect to the concentration `C = 1/vMonomer`. -/
theorem C105_concentration (V v : ℝ) (hv : 0 < v) (species : List Spec) (e : Eig m) (wc : Fts.Flds m n)
    (pert : Option (ℝ × (Fin m → ℝ) × Fts.Flds m n)) :
    HasDerivAt (fun C => totalHam V (1 / C) species e wc pert - (n : ℝ) / 2 * Real.log C)
      (concentrationDerivative v n (totalHam V v species e wc pert)) (1 / v) := by
  have hlin : ∀ C, totalHam V (1 / C) species e wc pert = C * totalHam V 1 species e wc pert := by
    intro C
    have h1 : hamiltonianF V (1 / C) species e wc = C * hamiltonianF V 1 species e wc := by
      unfold hamiltonianF
      simp only [one_div, div_inv_eq_mul, div_one]
      ring
    have h2 : ∀ eps wc0, ecHamiltonian V (1 / C) eps wc wc0 = C * ecHamiltonian V 1 eps wc wc0 := by
      intro eps wc0
      unfold ecHamiltonian
      simp only [one_div, div_inv_eq_mul, div_one]
      ring
    cases pert with
    | none => exact h1
    | some p =>
      obtain ⟨lam, eps, wc0⟩ := p
      unfold totalHam ecPerturbation
      dsimp only
      rw [h1, h2]
      ring
  have hC : (1 / v : ℝ) ≠ 0 := by positivity
  have h1 := (hasDerivAt_id (1 / v)).mul_const (totalHam V 1 species e wc pert)
  have h2 := (Real.hasDerivAt_log hC).const_mul ((n : ℝ) / 2)
  have h3 := h1.sub h2
  have hv' := hlin (1 / v)
  rw [one_div_one_div] at hv'
  have hf : (fun C => totalHam V (1 / C) species e wc pert - (n : ℝ) / 2 * Real.log C) =
      fun C => C * totalHam V 1 species e wc pert - (n : ℝ) / 2 * Real.log C := by
    funext C
    rw [hlin]
  rw [hf]
  refine h3.congr_deriv ?_
  unfold concentrationDerivative
  rw [hv']
  dsimp only
  field_simp

/-! ## Thermodynamic integration -/

open MeasureTheory

theorem meanSq_nonneg (a b : ℝ) (w : Fts.Flds 1 n) : 0 ≤ meanSq a b w := by
  unfold meanSq
  exact div_nonneg (Finset.sum_nonneg fun i _ => sq_nonneg _) (Nat.cast_nonneg n)

theorem meanSq_measurable (a b : ℝ) : Measurable (meanSq a b : Fts.Flds 1 n → ℝ) := by
  unfold meanSq
  fun_prop

/-- The functional integral for explicit dependence on chi. -/
theorem log_integral_deriv {Ω : Type} [MeasurableSpace Ω] (μ : Measure Ω) (hμ : μ ≠ 0) (I A : Ω → ℝ)
    (hI : Measurable I) (hA : Measurable A) (hA0 : ∀ ω, 0 ≤ A ω) (k χ : ℝ) (N : Nat) (hk : 0 < k) (hχ : 0 < χ)
    (hint : Integrable (fun ω => (1 + A ω) * Real.exp (-(I ω + k * A ω / (2 * χ)))) μ) :
    HasDerivAt (fun x => -Real.log (∫ ω, Real.exp (-(I ω + k * (A ω / x + x / 4) + (N : ℝ) / 2 * Real.log x)) ∂μ))
      ((∫ ω, (k * (-(A ω / χ ^ 2) + 1 / 4) + (N : ℝ) / (2 * χ)) *
          Real.exp (-(I ω + k * (A ω / χ + χ / 4) + (N : ℝ) / 2 * Real.log χ)) ∂μ) /
        ∫ ω, Real.exp (-(I ω + k * (A ω / χ + χ / 4) + (N : ℝ) / 2 * Real.log χ)) ∂μ) χ := by
  set G : ℝ → Ω → ℝ := fun x ω => I ω + k * (A ω / x + x / 4) + (N : ℝ) / 2 * Real.log x with hG
  set G' : ℝ → Ω → ℝ := fun x ω => k * (-(A ω / x ^ 2) + 1 / 4) + (N : ℝ) / (2 * x) with hG'
  have hGm : ∀ x, Measurable (G x) := by
    intro x
    simp only [hG]
    fun_prop
  have hG'm : ∀ x, Measurable (G' x) := by
    intro x
    simp only [hG']
    fun_prop
  have hs : Set.Ioo (χ / 2) (2 * χ) ∈ 𝓝 χ := Ioo_mem_nhds (by linarith) (by linarith)
  set K := Real.exp (-((N : ℝ) / 2 * Real.log (χ / 2)))
  set c := k * (4 / χ ^ 2 + 1 / 4) + (N : ℝ) / χ
  have hc : 0 ≤ c := by positivity
  have hexp : ∀ ω, ∀ x ∈ Set.Ioo (χ / 2) (2 * χ), Real.exp (-G x ω) ≤ K * Real.exp (-(I ω + k * A ω / (2 * χ))) := by
    intro ω x hx
    have hx0 : 0 < x := by linarith [hx.1]
    rw [← Real.exp_add]
    apply Real.exp_le_exp.2
    simp only [hG]
    have h1 : Real.log (χ / 2) ≤ Real.log x := Real.log_le_log (by positivity) hx.1.le
    have h2 : (N : ℝ) / 2 * Real.log (χ / 2) ≤ (N : ℝ) / 2 * Real.log x :=
      mul_le_mul_of_nonneg_left h1 (by positivity)
    have h3 : A ω / (2 * χ) ≤ A ω / x := div_le_div_of_nonneg_left (hA0 ω) hx0 hx.2.le
    have h4 : k * A ω / (2 * χ) ≤ k * (A ω / x + x / 4) := by
      rw [mul_div_assoc]
      apply mul_le_mul_of_nonneg_left _ hk.le
      linarith
    linarith
  have hder : ∀ ω, ∀ x ∈ Set.Ioo (χ / 2) (2 * χ),
      HasDerivAt (fun x => Real.exp (-G x ω)) (-G' x ω * Real.exp (-G x ω)) x := by
    intro ω x hx
    have hx0 : x ≠ 0 := by linarith [hx.1]
    have h1 : HasDerivAt (fun x : ℝ => A ω / x) (A ω * (-1 / x ^ 2)) x := by
      have := ((hasDerivAt_id x).inv hx0).const_mul (A ω)
      simpa [div_eq_mul_inv] using this
    have h2 : HasDerivAt (fun x : ℝ => x / 4) (1 / 4) x := (hasDerivAt_id x).div_const 4
    have h3 := (((h1.add h2).const_mul k).const_add (I ω)).add
      ((Real.hasDerivAt_log hx0).const_mul ((N : ℝ) / 2))
    have h4 := h3.neg.exp
    refine h4.congr_deriv ?_
    simp only [hG', hG, Pi.neg_apply, Pi.add_apply]
    field_simp
  have hbound : ∀ ω, ∀ x ∈ Set.Ioo (χ / 2) (2 * χ),
      ‖-G' x ω * Real.exp (-G x ω)‖ ≤ c * K * ((1 + A ω) * Real.exp (-(I ω + k * A ω / (2 * χ)))) := by
    intro ω x hx
    have hx0 : 0 < x := by linarith [hx.1]
    rw [norm_mul, norm_neg, Real.norm_eq_abs, Real.norm_eq_abs, abs_of_pos (Real.exp_pos _)]
    have h1 : |G' x ω| ≤ c * (1 + A ω) := by
      have hx2 : (χ / 2) ^ 2 ≤ x ^ 2 := pow_le_pow_left₀ (by positivity) hx.1.le 2
      have h2 : A ω / x ^ 2 ≤ A ω / (χ / 2) ^ 2 := div_le_div_of_nonneg_left (hA0 ω) (by positivity) hx2
      have h3 : (N : ℝ) / (2 * x) ≤ (N : ℝ) / χ :=
        div_le_div_of_nonneg_left (by positivity) hχ (by linarith [hx.1])
      have h4 : A ω / (χ / 2) ^ 2 = 4 / χ ^ 2 * A ω := by rw [div_pow, div_div_eq_mul_div]; ring
      have h5 : 0 ≤ A ω / x ^ 2 := div_nonneg (hA0 ω) (by positivity)
      have h6 : 0 ≤ (N : ℝ) / (2 * x) := by positivity
      rw [h4] at h2
      have h7 : k * (A ω / x ^ 2) ≤ k * (4 / χ ^ 2 * A ω) := mul_le_mul_of_nonneg_left h2 hk.le
      have h8 : 0 ≤ k * (A ω / x ^ 2) := mul_nonneg hk.le h5
      have h9 : 0 ≤ k * (4 / χ ^ 2) := by positivity
      have h10 : 0 ≤ (N : ℝ) / χ * A ω := mul_nonneg (by positivity) (hA0 ω)
      have h11 : 0 ≤ k * A ω := mul_nonneg hk.le (hA0 ω)
      have hcc : c * (1 + A ω) = k * (4 / χ ^ 2) + k * (4 / χ ^ 2 * A ω) + k / 4 + k * A ω / 4 + (N : ℝ) / χ +
          (N : ℝ) / χ * A ω := by
        simp only [c]; ring
      rw [hcc, abs_le]
      simp only [hG']
      constructor <;> nlinarith
    calc |G' x ω| * Real.exp (-G x ω)
        ≤ c * (1 + A ω) * (K * Real.exp (-(I ω + k * A ω / (2 * χ)))) :=
          mul_le_mul h1 (hexp ω x hx) (Real.exp_pos _).le (mul_nonneg hc (by linarith [hA0 ω]))
      _ = _ := by ring
  have hint0 : Integrable (fun ω => Real.exp (-G χ ω)) μ := by
    refine (hint.const_mul K).mono' ((hGm χ).neg.exp.aestronglyMeasurable) (Filter.Eventually.of_forall fun ω => ?_)
    rw [Real.norm_eq_abs, abs_of_pos (Real.exp_pos _)]
    refine (hexp ω χ ⟨by linarith, by linarith⟩).trans ?_
    apply mul_le_mul_of_nonneg_left _ (Real.exp_pos _).le
    have := Real.exp_pos (-(I ω + k * A ω / (2 * χ)))
    nlinarith [hA0 ω]
  have hZ : 0 < ∫ ω, Real.exp (-G χ ω) ∂μ := by
    rw [integral_pos_iff_support_of_nonneg (fun ω => (Real.exp_pos _).le) hint0]
    have : Function.support (fun ω => Real.exp (-G χ ω)) = Set.univ := by
      ext ω
      simp [(Real.exp_pos _).ne']
    rw [this]
    exact Measure.measure_univ_pos.2 hμ
  have hmain := (hasDerivAt_integral_of_dominated_loc_of_deriv_le (μ := μ) (x₀ := χ)
    (F := fun x ω => Real.exp (-G x ω)) (F' := fun x ω => -G' x ω * Real.exp (-G x ω))
    (bound := fun ω => c * K * ((1 + A ω) * Real.exp (-(I ω + k * A ω / (2 * χ))))) hs
    (Filter.Eventually.of_forall fun x => (hGm x).neg.exp.aestronglyMeasurable) hint0
    (((hG'm χ).neg.mul (hGm χ).neg.exp).aestronglyMeasurable)
    (Filter.Eventually.of_forall hbound) (hint.const_mul _) (Filter.Eventually.of_forall hder)).2
  have hlog := (hmain.log hZ.ne').neg
  refine hlog.congr_deriv ?_
  rw [← neg_div]
  congr 1
  rw [← integral_neg]
  congr 1
  funext ω
  ring

/-- C105: thermodynamic integration. For fields distributed over any space with any reference measure (fields
sampled in a simulation; the mixture data may depend on the fields in any way), the derivative of the free energy
`-ln Z` with respect to chi is the Boltzmann average of the values of `ChiDerivative`, provided that the
functional integral converges for a somewhat larger chi. -/
theorem C105_integration {χ : ℝ} {e : ℝ → Eig 1} (h : Analysed 0 0 χ e) (hχ : 0 < χ) (V v : ℝ) (hV : 0 < V)
    (hv : 0 < v) {Ω : Type} [MeasurableSpace Ω] (μ : Measure Ω) (hμ : μ ≠ 0) (w : Ω → Fts.Flds 1 n)
    (hw : Measurable w) (species : Ω → List Spec) (hsp : Measurable fun ω => lnQSpecies (species ω) 0)
    (hint : Integrable (fun ω => (1 + meanSq 0 0 (w ω)) * Real.exp (
      V / v * (lnQSpecies (species ω) 0 + (∑ i, (w ω 0 i + w ω 1 i) / 2) / n) -
        V / v * meanSq 0 0 (w ω) / (2 * χ))) μ) :
    HasDerivAt (fun x => -Real.log (∫ ω, Real.exp (-(hamiltonianF V v (species ω) (e x) (computeWcF (e x) (w ω)) +
        (n : ℝ) / 2 * Real.log x)) ∂μ))
      ((∫ ω, chiDerivative V v n χ (fieldHam V v (e χ) (computeWcF (e χ) (w ω))) ((e χ).sc 1) *
          Real.exp (-(hamiltonianF V v (species ω) (e χ) (computeWcF (e χ) (w ω)) +
            (n : ℝ) / 2 * Real.log χ)) ∂μ) /
        ∫ ω, Real.exp (-(hamiltonianF V v (species ω) (e χ) (computeWcF (e χ) (w ω)) +
          (n : ℝ) / 2 * Real.log χ)) ∂μ) χ := by
  set I : Ω → ℝ := fun ω => -(V / v) * (lnQSpecies (species ω) 0 + (∑ i, (w ω 0 i + w ω 1 i) / 2) / n)
  have hIm : Measurable I := by
    have hwi : ∀ j i, Measurable fun ω => w ω j i := fun j i => by fun_prop
    simp only [I]
    fun_prop
  have hAm : Measurable fun ω => meanSq 0 0 (w ω) := (meanSq_measurable 0 0).comp hw
  have hk : 0 < V / v := by positivity
  have hgen := log_integral_deriv μ hμ I (fun ω => meanSq 0 0 (w ω)) hIm hAm (fun ω => meanSq_nonneg _ _ _) (V / v) χ n
    hk hχ (by
      refine hint.congr (Filter.Eventually.of_forall fun ω => ?_)
      dsimp only
      congr 2
      simp only [I]
      ring)
  have hH : ∀ x, EigGood (chi2 0 x 0) (e x) → ∀ ω, hamiltonianF V v (species ω) (e x) (computeWcF (e x) (w ω)) =
      I ω + V / v * (meanSq 0 0 (w ω) / x + x / 4) := by
    intro x hx ω
    rw [ham_two hx]
    simp only [I]
    have e1 : ((0 : ℝ) + 0) / 2 - x = -x := by ring
    have e2 : ((0 : ℝ) + 2 * x + 0) / 8 = x / 4 := by ring
    rw [e1, e2, div_neg, neg_neg]
  have hg := h.good.self_of_nhds
  have hval : ∀ ω, chiDerivative V v n χ (fieldHam V v (e χ) (computeWcF (e χ) (w ω))) ((e χ).sc 1) =
      V / v * (-(meanSq 0 0 (w ω) / χ ^ 2) + 1 / 4) + (n : ℝ) / (2 * χ) := by
    intro ω
    unfold chiDerivative
    rw [fieldHam_two hg, (eig_two hg).2.2.2.2.2]
    have e1 : ((0 : ℝ) + 0) / 2 - χ = -χ := by ring
    rw [e1]
    dsimp only
    field_simp
    ring
  simp only [hval, hH χ hg]
  refine hgen.congr_of_eventuallyEq ?_
  filter_upwards [h.good] with x hx
  simp only [hH x hx]

/-! ## Examples -/

/-- Orthonormal eigenvectors of the projected matrix. -/
theorem eigOk_two (x : ℝ) : EigOk (chiPM (chi2 0 x 0)) (fun i => if i = 0 then -x else 0)
    (fun i j => if i = 0 then (if j = 0 then √2 / 2 else -(√2 / 2)) else √2 / 2) := by
  have h2 : √2 / 2 * (√2 / 2) = 1 / 2 := by
    have := Real.mul_self_sqrt (show (0 : ℝ) ≤ 2 by norm_num)
    linarith
  constructor
  all_goals
    intro i j
    fin_cases i <;> fin_cases j <;>
      simp [Fin.sum_univ_succ (n := 1), Fin.sum_univ_one, chiPM, chiT, accum_eq, projP, chi2, nM] <;>
      nlinarith [h2]

theorem exAnalysed : ∃ e, Analysed 0 0 1 e := by
  have h : ∀ x : ℝ, 1 / 2 < x → ∃ e, analyze_chi (chi2 0 x 0) (fun i => if i = 0 then -x else 0)
      (fun i j => if i = 0 then (if j = 0 then √2 / 2 else -(√2 / 2)) else √2 / 2) = .ok e := by
    intro x hx
    refine C61_succeeds (eigOk_two x) (1 / 2) (by norm_num) ?_
    intro y hy
    simp only [Fin.sum_univ_succ (n := 1), Fin.sum_univ_one, Fin.succ_zero_eq_one, chi2] at hy ⊢
    norm_num
    have : y 1 = -y 0 := by linarith
    rw [this]
    nlinarith [mul_self_nonneg (y 0)]
  have : Nonempty (Eig 1) := ⟨⟨0, 0, 0⟩⟩
  choose! e he using h
  refine ⟨e, ?_⟩
  filter_upwards [lt_mem_nhds (show (1 / 2 : ℝ) < 1 by norm_num)] with x hx
  exact ⟨_, _, eigOk_two x, he x hx⟩

-- two configurations of the fields
example (w : Fin 2 → Fts.Flds 1 3) : ∃ (e : ℝ → Eig 1) (d : ℝ), HasDerivAt (fun x => -Real.log (∫ ω, Real.exp (-(hamiltonianF 5 2
    [⟨1, 3, 1⟩] (e x) (computeWcF (e x) (w ω)) + ((3 : ℕ) : ℝ) / 2 * Real.log x)) ∂Measure.count)) d 1 := by
  obtain ⟨e, he⟩ := exAnalysed
  refine ⟨e, _, C105_integration he one_pos 5 2 (by norm_num) (by norm_num) Measure.count ?_ w
    Measurable.of_discrete (fun _ => [⟨1, 3, 1⟩]) measurable_const Integrable.of_finite⟩
  intro h
  have := congrArg (fun μ : Measure (Fin 2) => μ Set.univ) h
  simp at this

-- with equal diagonal parameters the value is wrong, unless the fluctuations happen to have the Gaussian variance
example {e : ℝ → Eig 1} (h : Analysed 1 1 3 e) (V v : ℝ) (hV : V ≠ 0) (hv : v ≠ 0) (species : List Spec)
    (w : Fts.Flds 1 2) (h0 : meanSq 1 1 w = 0) :
    chiDerivative V v 2 3 (fieldHam V v (e 3) (computeWcF (e 3) w)) ((e 3).sc 1) ≠
      deriv (fun x => hamiltonianF V v species (e x) (computeWcF (e x) w) +
        ((2 : ℕ) : ℝ) / 2 * Real.log (x - (1 + 1) / 2)) 3 := by
  have := C105_chi_error h (by norm_num) (by norm_num) V v hV hv species w
  intro h'
  rw [h', sub_self, h0] at this
  norm_num at this

end Verif.Ana
