import Verif.Crystal.CellProps

/-!
# Unit cells: derivatives with respect to the lattice parameters (C35, C36)
-/

namespace Verif.Crystal

open Matrix Topology

/-! ## C35 -/

/-- `dr` is the derivative of the basis `r` with respect to parameter `n` at `p`. -/
def IsDerivative {D : Nat} (r : Params → BasisVecs D) (dr : BasisVecs D) (p : Params)
    (n : Fin 6) : Prop :=
  ∀ i j, HasDerivAt (fun x => r (Function.update p n x) i j) (dr i j) (p n)

theorem C35_derivative_1D (l : Lat1) (p : Params) (n : Fin 6) (hn : n.val < l.nParameter) :
    IsDerivative l.rBasis (l.drBasis p n) p n := by
  intro i j
  cases l
  have : n = 0 := by ext; simpa [Lat1.nParameter] using hn
  subst this
  fin_cases i; fin_cases j
  simp [Lat1.rBasis, Lat1.drBasis]
  exact hasDerivAt_id _

/-- C35 in two dimensions. The full claim has no exception; it fails for `b` and `gamma` of an
oblique lattice, see `C35_oblique_violated`. -/
theorem C35_derivative_2D_partial (l : Lat2) (p : Params) (n : Fin 6)
    (hn : n.val < l.nParameter) (hx : ¬ (l = .oblique ∧ n ≠ 0)) :
    IsDerivative l.rBasis (l.drBasis p n) p n := by
  intro i j
  cases l <;> fin_cases n <;> simp [Lat2.nParameter] at hn hx <;>
    fin_cases i <;> fin_cases j <;>
    simp [Lat2.rBasis, Lat2.drBasis] <;>
    (try exact hasDerivAt_const _ _) <;> (try exact hasDerivAt_id _) <;>
    refine (DifferentiableAt.hasDerivAt (by fun_prop)).congr_deriv (by simp)

/-- C35 in three dimensions, except for the angle of monoclinic and rhombohedral lattices, see
`C35_monoclinic_sign` and `C35_rhombohedral_sign`. -/
theorem C35_derivative_3D_partial (l : Lat3) (p : Params) (n : Fin 6)
    (hn : n.val < l.nParameter)
    (hx : ¬ (l = .monoclinic ∧ n = 3)) (hx' : ¬ (l = .rhombohedral ∧ n = 1)) :
    IsDerivative l.rBasis (l.drBasis p n) p n := by
  intro i j
  cases l <;> fin_cases n <;> simp [Lat3.nParameter] at hn hx hx' <;>
    fin_cases i <;> fin_cases j <;>
    simp [Lat3.rBasis, Lat3.drBasis] <;>
    (try exact hasDerivAt_const _ _) <;> (try exact hasDerivAt_id _) <;>
    refine (DifferentiableAt.hasDerivAt (by fun_prop)).congr_deriv (by simp)

/-- C35 is violated by every oblique cell: the derivative with respect to `b` is never the
derivative (line 143-144 overwrites it), and the one with respect to `gamma` stays zero. -/
theorem C35_oblique_violated (p : Params) :
    ¬ IsDerivative Lat2.oblique.rBasis (Lat2.oblique.drBasis p 1) p 1 ∧
      (p 1 ≠ 0 → ¬ IsDerivative Lat2.oblique.rBasis (Lat2.oblique.drBasis p 2) p 2) := by
  constructor
  · intro h
    have h0 := h 1 0
    have h1 := h 1 1
    simp [Lat2.rBasis, Lat2.drBasis] at h0 h1
    have e0 : HasDerivAt (fun x => Real.cos (p 2) * x) (Real.cos (p 2)) (p 1) :=
      (DifferentiableAt.hasDerivAt (by fun_prop)).congr_deriv (by simp)
    have e1 : HasDerivAt (fun x => Real.sin (p 2) * x) (Real.sin (p 2)) (p 1) :=
      (DifferentiableAt.hasDerivAt (by fun_prop)).congr_deriv (by simp)
    have q0 := h0.unique e0
    have q1 := h1.unique e1
    have := Real.sin_sq_add_cos_sq (p 2)
    nlinarith [sq_nonneg (p 1), mul_self_nonneg (p 1 * Real.cos (p 2))]
  · intro hb h
    have h0 := h 1 0
    have h1 := h 1 1
    simp [Lat2.rBasis, Lat2.drBasis] at h0 h1
    have e0 : HasDerivAt (fun x => Real.cos x * p 1) (-Real.sin (p 2) * p 1) (p 2) :=
      (DifferentiableAt.hasDerivAt (by fun_prop)).congr_deriv (by simp)
    have e1 : HasDerivAt (fun x => Real.sin x * p 1) (Real.cos (p 2) * p 1) (p 2) :=
      (DifferentiableAt.hasDerivAt (by fun_prop)).congr_deriv (by simp)
    have q0 := h0.unique e0
    have q1 := h1.unique e1
    have := Real.sin_sq_add_cos_sq (p 2)
    have s0 : Real.sin (p 2) = 0 := by
      rcases mul_eq_zero.mp q0.symm with h | h
      · linarith
      · exact absurd h hb
    have c0 : Real.cos (p 2) = 0 := by
      rcases mul_eq_zero.mp q1.symm with h | h
      · exact h
      · exact absurd h hb
    rw [s0, c0] at this
    norm_num at this

/-- In a monoclinic cell the negative of `drBasis_[3]` is the derivative with respect to
`beta`: the sign is wrong whenever `c ≠ 0`. -/
theorem C35_monoclinic_sign (p : Params) :
    IsDerivative Lat3.monoclinic.rBasis (-(Lat3.monoclinic.drBasis p 3)) p 3 ∧
      (p 2 ≠ 0 → ¬ IsDerivative Lat3.monoclinic.rBasis (Lat3.monoclinic.drBasis p 3) p 3) := by
  have h : IsDerivative Lat3.monoclinic.rBasis (-(Lat3.monoclinic.drBasis p 3)) p 3 := by
    intro i j
    fin_cases i <;> fin_cases j <;> simp [Lat3.rBasis, Lat3.drBasis] <;>
      (try exact hasDerivAt_const _ _) <;>
      refine (DifferentiableAt.hasDerivAt (by fun_prop)).congr_deriv (by simp)
  refine ⟨h, fun hc h' => ?_⟩
  have q0 := (h 2 0).unique (h' 2 0)
  have q1 := (h 2 2).unique (h' 2 2)
  simp [Lat3.drBasis] at q0 q1
  have := Real.sin_sq_add_cos_sq (p 3)
  have s0 : Real.sin (p 3) = 0 := by
    have : p 2 * Real.sin (p 3) = 0 := by linarith
    exact (mul_eq_zero.mp this).resolve_left hc
  have c0 : Real.cos (p 3) = 0 := by
    have : p 2 * Real.cos (p 3) = 0 := by linarith
    exact (mul_eq_zero.mp this).resolve_left hc
  rw [s0, c0] at this
  norm_num at this

theorem rh_domain {beta : ℝ} (hS : Real.sin (rhTheta beta) ≠ 0)
    (hC : Real.cos (rhTheta beta) ≠ 0) :
    0 < (2 * Real.cos beta + 1) / 3 ∧ (2 * Real.cos beta + 1) / 3 < 1 := by
  have hle : (2 * Real.cos beta + 1) / 3 ≤ 1 := by linarith [Real.cos_le_one beta]
  constructor
  · by_contra h
    apply hC
    rw [rhTheta, Real.sqrt_eq_zero_of_nonpos (not_lt.mp h)]
    simp
  · apply lt_of_le_of_ne hle
    intro h
    apply hS
    rw [rhTheta, h]
    simp

theorem rh_cos {beta : ℝ} (h0 : 0 ≤ (2 * Real.cos beta + 1) / 3) :
    Real.cos (rhTheta beta) ^ 2 = (2 * Real.cos beta + 1) / 3 := by
  have hle : (2 * Real.cos beta + 1) / 3 ≤ 1 := by linarith [Real.cos_le_one beta]
  rw [rhTheta, Real.cos_arccos]
  · exact Real.sq_sqrt h0
  · linarith [Real.sqrt_nonneg ((2 * Real.cos beta + 1) / 3)]
  · exact Real.sqrt_le_one.mpr hle

/-- `d theta / d beta` of the rhombohedral cell. -/
theorem rh_deriv {beta : ℝ} (hS : Real.sin (rhTheta beta) ≠ 0)
    (hC : Real.cos (rhTheta beta) ≠ 0) :
    HasDerivAt rhTheta
      (Real.sin beta / (3 * Real.cos (rhTheta beta) * Real.sin (rhTheta beta))) beta := by
  obtain ⟨h0, h1⟩ := rh_domain hS hC
  have hu : HasDerivAt (fun b => (2 * Real.cos b + 1) / 3) (-(2 * Real.sin beta) / 3) beta :=
    (DifferentiableAt.hasDerivAt (by fun_prop)).congr_deriv (by simp)
  have hs := hu.sqrt h0.ne'
  have hlt : √((2 * Real.cos beta + 1) / 3) < 1 := by
    rw [Real.sqrt_lt' one_pos]; simpa using h1
  have hpos : 0 < √((2 * Real.cos beta + 1) / 3) := Real.sqrt_pos.mpr h0
  have ha := (Real.hasDerivAt_arccos (x := √((2 * Real.cos beta + 1) / 3))
    (by linarith) hlt.ne).comp beta hs
  have eC : Real.cos (rhTheta beta) = √((2 * Real.cos beta + 1) / 3) := by
    rw [rhTheta, Real.cos_arccos (by linarith) hlt.le]
  have eS : Real.sin (rhTheta beta) = √(1 - √((2 * Real.cos beta + 1) / 3) ^ 2) := by
    rw [rhTheta, Real.sin_arccos]
  have hf : (Real.arccos ∘ fun b => √((2 * Real.cos b + 1) / 3)) = rhTheta := rfl
  rw [hf] at ha
  refine ha.congr_deriv ?_
  rw [eC, eS]
  rw [eS] at hS
  field_simp

/-- In every non-degenerate rhombohedral cell the negative of `drBasis_[1]` is the derivative
with respect to `beta`, so the stored derivative has the wrong sign. -/
theorem C35_rhombohedral_sign (p : Params) (hp : NonDegenerate (Lat3.rhombohedral.rBasis p)) :
    IsDerivative Lat3.rhombohedral.rBasis (-(Lat3.rhombohedral.drBasis p 1)) p 1 ∧
      (Real.sin (p 1) ≠ 0 →
        ¬ IsDerivative Lat3.rhombohedral.rBasis (Lat3.rhombohedral.drBasis p 1) p 1) := by
  unfold NonDegenerate at hp
  rw [Matrix.det_fin_three] at hp
  have h0 : p 0 ≠ 0 := fun e => hp (by simp [Lat3.rBasis, e])
  have hS0 : Real.sin (rhTheta (p 1)) ≠ 0 := fun e => hp (by simp [Lat3.rBasis, e])
  have hC0 : Real.cos (rhTheta (p 1)) ≠ 0 := fun e => hp (by simp [Lat3.rBasis, e])
  have hd := rh_deriv hS0 hC0
  have h : IsDerivative Lat3.rhombohedral.rBasis (-(Lat3.rhombohedral.drBasis p 1)) p 1 := by
    intro i j
    fin_cases i <;> fin_cases j <;> simp [Lat3.rBasis, Lat3.drBasis] <;>
      (try exact hasDerivAt_const _ _)
    · exact (hd.sin.mul_const (p 0)).congr_deriv (by ring)
    · exact (hd.cos.mul_const (p 0)).congr_deriv (by ring)
    · exact (((hd.sin.const_mul (2⁻¹ : ℝ)).mul_const (p 0)).fun_neg).congr_deriv (by ring)
    · exact ((hd.sin.const_mul (2⁻¹ * √3)).mul_const (p 0)).congr_deriv (by ring)
    · exact (hd.cos.mul_const (p 0)).congr_deriv (by ring)
    · exact (((hd.sin.const_mul (2⁻¹ : ℝ)).mul_const (p 0)).fun_neg).congr_deriv (by ring)
    · exact (((hd.sin.const_mul (2⁻¹ * √3)).mul_const (p 0)).fun_neg).congr_deriv (by ring)
    · exact (hd.cos.mul_const (p 0)).congr_deriv (by ring)
  refine ⟨h, fun hs h' => ?_⟩
  have q0 := (h 0 0).unique (h' 0 0)
  simp [Lat3.drBasis] at q0
  have : Real.cos (rhTheta (p 1)) * (-Real.sin (p 1) /
    (3 * Real.cos (rhTheta (p 1)) * Real.sin (rhTheta (p 1)))) * p 0 = 0 := by linarith
  simp [h0, hS0, hC0, hs] at this

/-! ## C36 -/

theorem diff_det {D : Nat} {M : ℝ → Matrix (Fin D) (Fin D) ℝ} {x0 : ℝ}
    (h : ∀ i j, DifferentiableAt ℝ (fun x => M x i j) x0) :
    DifferentiableAt ℝ (fun x => (M x).det) x0 := by
  simp only [Matrix.det_apply]
  refine DifferentiableAt.fun_sum fun σ _ => ?_
  refine DifferentiableAt.const_smul ?_ _
  exact DifferentiableAt.fun_finsetProd fun i _ => h _ _

theorem diff_adjugate {D : Nat} {M : ℝ → Matrix (Fin D) (Fin D) ℝ} {x0 : ℝ}
    (h : ∀ i j, DifferentiableAt ℝ (fun x => M x i j) x0) (i j : Fin D) :
    DifferentiableAt ℝ (fun x => (M x).adjugate i j) x0 := by
  simp only [Matrix.adjugate_apply]
  refine diff_det fun a b => ?_
  by_cases hab : a = j
  · subst hab; simp only [Matrix.updateRow_self]; exact differentiableAt_const _
  · simp only [Matrix.updateRow_ne hab]; exact h a b

theorem reciprocal_mul {D : Nat} {r k : BasisVecs D} (h : Reciprocal r k) :
    Matrix.of r * (Matrix.of k)ᵀ = (2 * Real.pi) • (1 : Matrix (Fin D) (Fin D) ℝ) := by
  ext i j
  rw [Matrix.mul_apply, Matrix.smul_apply, Matrix.one_apply]
  simpa using h i j

theorem reciprocal_eq {D : Nat} {r k : BasisVecs D} (h : Reciprocal r k) (i j : Fin D) :
    k i j = 2 * Real.pi * ((Matrix.of r).det⁻¹ * (Matrix.of r).adjugate j i) := by
  have hpi : (2 * Real.pi) ≠ 0 := by positivity
  have hm := reciprocal_mul h
  have h1 : Matrix.of r * ((2 * Real.pi)⁻¹ • (Matrix.of k)ᵀ) = 1 := by
    rw [Matrix.mul_smul, hm, smul_smul, inv_mul_cancel₀ hpi, one_smul]
  have h2 := Matrix.inv_eq_right_inv h1
  have h3 : (Matrix.of k)ᵀ = (2 * Real.pi) • (Matrix.of r)⁻¹ := by
    rw [h2, smul_smul, mul_inv_cancel₀ hpi, one_smul]
  have h4 := congrFun (congrFun h3 j) i
  rw [Matrix.inv_def] at h4
  simpa [Ring.inverse_eq_inv'] using h4

theorem reciprocal_det {D : Nat} {r k : BasisVecs D} (h : Reciprocal r k) :
    (Matrix.of r).det ≠ 0 := by
  have hm := congrArg Matrix.det (reciprocal_mul h)
  rw [Matrix.det_mul, Matrix.det_smul, Matrix.det_one, mul_one] at hm
  intro e
  rw [e, zero_mul] at hm
  have : (2 * Real.pi) ^ (Fintype.card (Fin D)) ≠ 0 := by positivity
  exact this hm.symm

theorem reciprocal_symm {D : Nat} {r k : BasisVecs D} (h : Reciprocal r k) (s t : Fin D) :
    ∑ i, k i t * r i s = if t = s then 2 * Real.pi else 0 := by
  have hpi : (2 * Real.pi) ≠ 0 := by positivity
  have hm := reciprocal_mul h
  have h1 : Matrix.of r * ((2 * Real.pi)⁻¹ • (Matrix.of k)ᵀ) = 1 := by
    rw [Matrix.mul_smul, hm, smul_smul, inv_mul_cancel₀ hpi, one_smul]
  have h2 := mul_eq_one_comm.mp h1
  have h3 : (Matrix.of k)ᵀ * Matrix.of r = (2 * Real.pi) • (1 : Matrix (Fin D) (Fin D) ℝ) := by
    rw [← h2, Matrix.smul_mul, smul_smul, mul_inv_cancel₀ hpi, one_smul]
  have h4 := congrFun (congrFun h3 t) s
  rw [Matrix.mul_apply, Matrix.smul_apply, Matrix.one_apply] at h4
  simpa using h4

theorem dkBasis_eq {D : Nat} (k dr : BasisVecs D) (q r : Fin D) :
    2 * Real.pi * dkBasis k dr q r = -∑ s, ∑ t, k q s * dr t s * k t r := by
  have hpi : (2 * Real.pi) ≠ 0 := by positivity
  simp only [dkBasis, accum_eq, zero_add, twoPi, Finset.sum_neg_distrib]
  field_simp

/-- The stored derivatives of the reciprocal basis are correct whenever `drBasis` is. -/
theorem C36_dkBasis {D : Nat} (r k : ℝ → BasisVecs D) (dr : BasisVecs D) (x0 : ℝ)
    (hr : ∀ i j, HasDerivAt (fun x => r x i j) (dr i j) x0)
    (hk : ∀ᶠ x in 𝓝 x0, Reciprocal (r x) (k x)) (i j : Fin D) :
    HasDerivAt (fun x => k x i j) (dkBasis (k x0) dr i j) x0 := by
  have hpi : (2 * Real.pi) ≠ 0 := by positivity
  have hk0 : Reciprocal (r x0) (k x0) := hk.self_of_nhds
  have hdiffR : ∀ i j, DifferentiableAt ℝ (fun x => Matrix.of (r x) i j) x0 := fun i j =>
    (hr i j).differentiableAt
  have hdiff : ∀ i j, DifferentiableAt ℝ (fun x => k x i j) x0 := by
    intro i j
    have h1 : DifferentiableAt ℝ
        (fun x => 2 * Real.pi * ((Matrix.of (r x)).det⁻¹ * (Matrix.of (r x)).adjugate j i)) x0 :=
      (((diff_det hdiffR).fun_inv (reciprocal_det hk0)).fun_mul (diff_adjugate hdiffR j i)).const_mul _
    refine h1.congr_of_eventuallyEq ?_
    filter_upwards [hk] with x hx using reciprocal_eq hx i j
  have hkd : ∀ i j, HasDerivAt (fun x => k x i j) (deriv (fun x => k x i j) x0) x0 :=
    fun i j => (hdiff i j).hasDerivAt
  refine (hkd i j).congr_deriv ?_
  -- differentiate the reciprocity relation
  have hrel : ∀ a b, ∑ s, (dr a s * k x0 b s + r x0 a s * deriv (fun x => k x b s) x0) = 0 := by
    intro a b
    have h1 : HasDerivAt (fun x => ∑ s, r x a s * k x b s)
        (∑ s, (dr a s * k x0 b s + r x0 a s * deriv (fun x => k x b s) x0)) x0 :=
      HasDerivAt.fun_sum fun s _ => (hr a s).fun_mul (hkd b s)
    have h2 : (fun x => ∑ s, r x a s * k x b s) =ᶠ[𝓝 x0]
        fun _ => if a = b then 2 * Real.pi else 0 := by
      filter_upwards [hk] with x hx using hx a b
    exact h1.unique ((hasDerivAt_const x0 _).congr_of_eventuallyEq h2)
  have h1 : ∑ a, k x0 a j *
      ∑ s, (dr a s * k x0 i s + r x0 a s * deriv (fun x => k x i s) x0) = 0 :=
    Finset.sum_eq_zero fun a _ => by rw [hrel a i, mul_zero]
  have h2 : ∑ a, k x0 a j * ∑ s, r x0 a s * deriv (fun x => k x i s) x0 =
      2 * Real.pi * deriv (fun x => k x i j) x0 := by
    simp only [Finset.mul_sum]
    rw [Finset.sum_comm]
    have : ∀ s, ∑ a, k x0 a j * (r x0 a s * deriv (fun x => k x i s) x0) =
        (if j = s then 2 * Real.pi else 0) * deriv (fun x => k x i s) x0 := by
      intro s
      rw [← reciprocal_symm hk0 s j, Finset.sum_mul]
      exact Finset.sum_congr rfl fun a _ => by ring
    simp [this]
  have h3 : ∑ a, k x0 a j * ∑ s, dr a s * k x0 i s =
      ∑ s, ∑ t, k x0 i s * dr t s * k x0 t j := by
    simp only [Finset.mul_sum]
    rw [Finset.sum_comm]
    exact Finset.sum_congr rfl fun s _ => Finset.sum_congr rfl fun t _ => by ring
  have h4 := dkBasis_eq (k x0) dr i j
  simp only [Finset.sum_add_distrib, mul_add] at h1
  rw [h2, h3] at h1
  apply mul_left_cancel₀ hpi
  rw [h4]
  linarith

theorem ksq_eq {D : Nat} (k : BasisVecs D) (G : Fin D → Int) :
    ksq k G = ∑ j, (∑ i, k i j * (G i : ℝ)) * (∑ i, k i j * (G i : ℝ)) := by
  simp [ksq, accum_eq]

theorem dksq_eq {D : Nat} (k dr : BasisVecs D) (G : Fin D → Int) :
    dksq k dr G = ∑ j, 2 * (∑ i, k i j * (G i : ℝ)) * (∑ i, dkBasis k dr i j * (G i : ℝ)) := by
  simp only [dksq, dkkBasis, accum_eq, zero_add]
  simp only [Finset.mul_sum]
  have h1 : ∑ p, ∑ q, ∑ s, (G p : ℝ) * (G q : ℝ) *
        (k p s * dkBasis k dr q s + k q s * dkBasis k dr p s) =
      ∑ s, ∑ p, ∑ q, (G p : ℝ) * (G q : ℝ) *
        (k p s * dkBasis k dr q s + k q s * dkBasis k dr p s) := by
    rw [Finset.sum_congr rfl fun p _ => Finset.sum_comm]
    rw [Finset.sum_comm]
  rw [h1]
  refine Finset.sum_congr rfl fun s _ => ?_
  have h2 : ∑ p, ∑ q, (G p : ℝ) * (G q : ℝ) * (k q s * dkBasis k dr p s) =
      ∑ p, ∑ q, (G p : ℝ) * (G q : ℝ) * (k p s * dkBasis k dr q s) := by
    rw [Finset.sum_comm]
    exact Finset.sum_congr rfl fun p _ => Finset.sum_congr rfl fun q _ => by ring
  simp only [mul_add, Finset.sum_add_distrib]
  rw [h2, ← two_mul, Finset.mul_sum]
  simp only [Finset.mul_sum, Finset.sum_mul]
  rw [Finset.sum_comm]
  exact Finset.sum_congr rfl fun p _ => Finset.sum_congr rfl fun q _ => by ring

/-- C36: if `drBasis` is the derivative of the Bravais basis along a curve of cells whose stored
reciprocal bases are reciprocal to the Bravais bases, then `dksq` is the derivative of `ksq`. -/
theorem C36_dksq {D : Nat} (r k : ℝ → BasisVecs D) (dr : BasisVecs D) (x0 : ℝ)
    (hr : ∀ i j, HasDerivAt (fun x => r x i j) (dr i j) x0)
    (hk : ∀ᶠ x in 𝓝 x0, Reciprocal (r x) (k x)) (G : Fin D → Int) :
    HasDerivAt (fun x => ksq (k x) G) (dksq (k x0) dr G) x0 := by
  have hd := C36_dkBasis r k dr x0 hr hk
  simp only [ksq_eq]
  rw [dksq_eq]
  refine HasDerivAt.fun_sum fun j _ => ?_
  have hg : HasDerivAt (fun x => ∑ i, k x i j * (G i : ℝ))
      (∑ i, dkBasis (k x0) dr i j * (G i : ℝ)) x0 :=
    HasDerivAt.fun_sum fun i _ => (hd i j).mul_const _
  exact (hg.fun_mul hg).congr_deriv (by ring)

/-- `drrBasis` is the derivative of the metric tensor `r_q . r_t`. -/
theorem C36_drrBasis {D : Nat} (r : ℝ → BasisVecs D) (dr : BasisVecs D) (x0 : ℝ)
    (hr : ∀ i j, HasDerivAt (fun x => r x i j) (dr i j) x0) (q t : Fin D) :
    HasDerivAt (fun x => ∑ s, r x q s * r x t s) (drrBasis (r x0) dr q t) x0 := by
  simp only [drrBasis, accum_eq, zero_add]
  exact HasDerivAt.fun_sum fun s _ => ((hr q s).fun_mul (hr t s)).congr_deriv (by ring)

theorem eventually_nondegenerate {D : Nat} {r : ℝ → BasisVecs D} {dr : BasisVecs D} {x0 : ℝ}
    (hr : ∀ i j, HasDerivAt (fun x => r x i j) (dr i j) x0) (h : NonDegenerate (r x0)) :
    ∀ᶠ x in 𝓝 x0, NonDegenerate (r x) :=
  (diff_det (M := fun x => Matrix.of (r x))
    (fun i j => (hr i j).differentiableAt)).continuousAt.eventually_ne h

theorem dksq_neg {D : Nat} (k dr : BasisVecs D) (G : Fin D → Int) :
    dksq k (-dr) G = - dksq k dr G := by
  have : ∀ i j, dkBasis k (-dr) i j = - dkBasis k dr i j := by
    intro i j
    simp only [dkBasis, accum_eq, zero_add, Pi.neg_apply, mul_neg, neg_mul, neg_neg,
      Finset.sum_neg_distrib, neg_div]
  simp only [dksq_eq, this, neg_mul, Finset.sum_neg_distrib, mul_neg]

/-- C36 for the cells of the program: `dksq(G, n)` is the derivative of `ksq(G)` with respect to
parameter `n` for all lattice systems and parameters for which `drBasis` is correct. -/
theorem C36_unit_cell_1D (l : Lat1) (p : Params) (n : Fin 6) (hn : n.val < l.nParameter)
    (h : NonDegenerate (l.rBasis p)) (G : Fin 1 → Int) :
    HasDerivAt (fun x => ksq (l.kBasis (Function.update p n x)) G)
      (dksq (l.kBasis p) (l.drBasis p n) G) (p n) := by
  have hr := C35_derivative_1D l p n hn
  have := C36_dksq (fun x => l.rBasis (Function.update p n x))
    (fun x => l.kBasis (Function.update p n x)) (l.drBasis p n) (p n) hr
    ((eventually_nondegenerate hr (by simpa using h)).mono
      fun x hx => C34_reciprocal_1D l _ hx) G
  simpa using this

theorem C36_unit_cell_2D_partial (l : Lat2) (p : Params) (n : Fin 6)
    (hn : n.val < l.nParameter) (hx : ¬ (l = .oblique ∧ n ≠ 0))
    (h : NonDegenerate (l.rBasis p)) (G : Fin 2 → Int) :
    HasDerivAt (fun x => ksq (l.kBasis (Function.update p n x)) G)
      (dksq (l.kBasis p) (l.drBasis p n) G) (p n) := by
  have hr := C35_derivative_2D_partial l p n hn hx
  have := C36_dksq (fun x => l.rBasis (Function.update p n x))
    (fun x => l.kBasis (Function.update p n x)) (l.drBasis p n) (p n) hr
    ((eventually_nondegenerate hr (by simpa using h)).mono
      fun x hx => C34_reciprocal_2D l _ hx) G
  simpa using this

theorem C36_unit_cell_3D_partial (l : Lat3) (p : Params) (n : Fin 6)
    (hn : n.val < l.nParameter)
    (hx : ¬ (l = .monoclinic ∧ n = 3)) (hx' : ¬ (l = .rhombohedral ∧ n = 1))
    (h : NonDegenerate (l.rBasis p)) (G : Fin 3 → Int) :
    HasDerivAt (fun x => ksq (l.kBasis (Function.update p n x)) G)
      (dksq (l.kBasis p) (l.drBasis p n) G) (p n) := by
  have hr := C35_derivative_3D_partial l p n hn hx hx'
  have := C36_dksq (fun x => l.rBasis (Function.update p n x))
    (fun x => l.kBasis (Function.update p n x)) (l.drBasis p n) (p n) hr
    ((eventually_nondegenerate hr (by simpa using h)).mono
      fun x hx => C34_reciprocal_3D l _ hx) G
  simpa using this

/-- For the angle of a monoclinic or rhombohedral cell `dksq` has the opposite sign of the
derivative of `ksq`, for every wavevector. -/
theorem C36_sign_violated (l : Lat3) (p : Params) (n : Fin 6)
    (hl : (l = .monoclinic ∧ n = 3) ∨ (l = .rhombohedral ∧ n = 1))
    (h : NonDegenerate (l.rBasis p)) (G : Fin 3 → Int) :
    HasDerivAt (fun x => ksq (l.kBasis (Function.update p n x)) G)
      (-dksq (l.kBasis p) (l.drBasis p n) G) (p n) := by
  have hr : IsDerivative l.rBasis (-(l.drBasis p n)) p n := by
    rcases hl with ⟨rfl, rfl⟩ | ⟨rfl, rfl⟩
    · exact (C35_monoclinic_sign p).1
    · exact (C35_rhombohedral_sign p h).1
  have := C36_dksq (fun x => l.rBasis (Function.update p n x))
    (fun x => l.kBasis (Function.update p n x)) (-(l.drBasis p n)) (p n) hr
    ((eventually_nondegenerate hr (by simpa using h)).mono
      fun x hx => C34_reciprocal_3D l _ hx) G
  rw [dksq_neg] at this
  simpa using this

/-- `dksq` with respect to `gamma` of an oblique cell is identically zero. -/
theorem C36_oblique_gamma_zero (p : Params) (G : Fin 2 → Int) :
    dksq (Lat2.oblique.kBasis p) (Lat2.oblique.drBasis p 2) G = 0 := by
  have : dkBasis (Lat2.oblique.kBasis p) (Lat2.oblique.drBasis p 2) = 0 := by
    funext i j
    simp [dkBasis, accum_eq, Lat2.drBasis]
  simp [dksq_eq, this]

-- a monoclinic cell meets the hypotheses of C36, for its lengths and for its angle
example : NonDegenerate (Lat3.monoclinic.rBasis ![2, 3, 4, Real.pi / 3, 0, 0]) ∧
    ¬ (Lat3.monoclinic = .monoclinic ∧ (2 : Fin 6) = 3) ∧ (2 : Fin 6).val < Lat3.monoclinic.nParameter := by
  refine ⟨?_, by decide, by decide⟩
  unfold NonDegenerate
  rw [Matrix.det_fin_three]
  simp [Lat3.rBasis]

-- the wrong sign is visible: for that kind of cell the derivative of ksq is not zero
example : dksq (Lat3.monoclinic.kBasis ![1, 1, 1, Real.pi / 4, 0, 0])
    (Lat3.monoclinic.drBasis ![1, 1, 1, Real.pi / 4, 0, 0] 3) ![1, 0, 0] ≠ 0 := by
  have h2 : √(2:ℝ) ≠ 0 := by positivity
  have hp := Real.pi_ne_zero
  rw [dksq_eq]
  simp [Fin.sum_univ_three, dkBasis, accum_eq, Lat3.kBasis, Lat3.drBasis, twoPi, Real.cos_pi_div_four, Real.sin_pi_div_four]

end Verif.Crystal
