import Verif.Solver.ExactLemmas

/-!
# C89, C90: concentrations and stress of thread polymers converge to derivatives of the free energy
-/

set_option autoImplicit false
set_option linter.unusedSectionVars false

namespace Verif.Solver

open Verif.Chem Conv NormedSpace

variable {m : Nat} {N : Fin (m + 1) → Nat} [∀ d, NeZero (N d)] {n : Nat} (en : Fin n ≃ Grid N)
  {es : List Edge} {fuel : Nat} {P : Polymer}

/-! ## Derivatives of the generator -/

theorem gen_deriv_field (w δ : Fld n ℝ) (kuhn : ℝ) (ksq : Half N → ℝ) (θ : ℝ) :
    HasDerivAt (fun t : ℝ => gen en (fun i => w i + t * δ i) kuhn ksq) (wOp δ) θ := by
  have e : (fun t : ℝ => gen en (fun i => w i + t * δ i) kuhn ksq) =
      fun t : ℝ => gen en w kuhn ksq + t • wOp δ := by
    funext t
    ext x i
    simp only [gen_apply, add_apply, Pi.add_apply, smul_apply, Pi.smul_apply, wOp_apply, smul_eq_mul]
    ring
  rw [e]
  have := ((hasDerivAt_id θ).smul_const (wOp δ)).const_add (gen en w kuhn ksq)
  exact this.congr_deriv (one_smul ℝ _)

/-- The dependence on the array of squared wavenumbers is linear. -/
noncomputable def kOpL (c : ℝ) : (Half N → ℝ) →L[ℝ] (Fld n ℝ →L[ℝ] Fld n ℝ) :=
  LinearMap.toContinuousLinearMap
    { toFun := fun f => kOp en c f
      map_add' := fun f g => by
        ext x i
        have : extR (f + g) = fun k => extR f k + extR g k := by
          funext k; unfold extR; split <;> rfl
        simp only [kOp_apply, add_apply, Pi.add_apply, dftKin_eq, this, add_mul, mul_add,
          Finset.sum_add_distrib]
      map_smul' := fun a f => by
        ext x i
        have : extR (a • f) = fun k => a * extR f k := by
          funext k; unfold extR; split <;> rfl
        simp only [kOp_apply, smul_apply, Pi.smul_apply, dftKin_eq, this, smul_eq_mul,
          RingHom.id_apply]
        have h : ∀ j, x j * (1 / (n : ℝ) * ∑ k, a * extR f k * (wave k (en i - en j)).re) =
            a * (x j * (1 / (n : ℝ) * ∑ k, extR f k * (wave k (en i - en j)).re)) := by
          intro j
          simp only [mul_assoc, ← Finset.mul_sum]
          ring
        simp only [h, ← Finset.mul_sum]
        ring }

theorem kOpL_apply (c : ℝ) (f : Half N → ℝ) : kOpL en c f = kOp en c f := rfl

theorem gen_deriv_ksq (w : Fld n ℝ) (kuhn : ℝ) {ksq : ℝ → Half N → ℝ} {dk : Half N → ℝ} {θ : ℝ}
    (h : ∀ k, HasDerivAt (fun t => ksq t k) (dk k) θ) :
    HasDerivAt (fun t : ℝ => gen en w kuhn (ksq t)) (kOp en (-(kuhn ^ 2 / 6)) dk) θ := by
  have h1 := (kOpL en (-(kuhn ^ 2 / 6))).hasFDerivAt.comp_hasDerivAt θ (hasDerivAt_pi.2 h)
  have h2 := h1.const_add (wOp w)
  exact h2

theorem dot_kOp (c : ℝ) (dk : Half N → ℝ) (x y : Fld n ℝ) :
    dot (kOp en c dk x) y = c * (n * waveSum en (trueDKSq dk) x y) := by
  have h := waveSum_true en (fun _ => (1 : ℝ)) dk x y
  simp only [mul_one] at h
  rw [← h]
  unfold dot
  rw [Finset.mul_sum]
  exact Finset.sum_congr rfl fun i _ => by rw [kOp_apply]; ring

/-! ## The exact problem -/

/-- **C89**: in the exact problem the contour integrals of products of propagators are the
derivatives of `-(phi/total) ln Q` with respect to the fields. -/
theorem C89_exact_concentration (hr : readTopology es fuel = some (.ok P)) (hes : es ≠ [])
    (w δ : Nat → Fld n ℝ) (len kuhn : Nat → ℝ) (ksq : Half N → ℝ) (phi phiTot total : ℝ)
    (U : ℝ → Pid → ℝ → Fld n ℝ)
    (hU : ∀ t, Exact en es P.vertices (fun k i => w k i + t * δ k i) len kuhn ksq (U t)) (θ : ℝ)
    (hQ : exactQ len (U θ) phiTot ≠ 0) :
    HasDerivAt (fun t => -(phi / total) * Real.log (exactQ len (U t) phiTot))
      ((∑ k : Fin es.length, ∑ i, δ k i * (phi / (exactQ len (U θ) phiTot * total) *
        ∫ s in (0 : ℝ)..len k, U θ (k, false) s i * U θ (k, true) (len k - s) i)) / n / phiTot) θ := by
  have h1 := exactQ_deriv en hr hes hU (θ := θ) (Z' := fun k => wOp (δ k))
    (fun k => gen_deriv_field en (w k) (δ k) (kuhn k) ksq θ) phiTot
  refine ((h1.log hQ).const_mul (-(phi / total))).congr_deriv ?_
  have e : ∀ k : Fin es.length, (∫ s in (0 : ℝ)..len k,
      dot (wOp (δ k) (U θ (k, false) s)) (U θ (k, true) (len k - s))) =
      -∑ i, δ k i * ∫ s in (0 : ℝ)..len k, U θ (k, false) s i * U θ (k, true) (len k - s) i := by
    intro k
    unfold dot
    have hc : ∀ i, Continuous fun s : ℝ => U θ ((k : Nat), false) s i *
        U θ ((k : Nat), true) (len k - s) i := fun i =>
      ((mde_smooth en ((hU θ).mde ((k : Nat), false) k.2) i).mul
        ((mde_smooth en ((hU θ).mde ((k : Nat), true) k.2) i).comp
          (contDiff_const.sub contDiff_id))).continuous
    rw [intervalIntegral.integral_finsetSum, ← Finset.sum_neg_distrib]
    · refine Finset.sum_congr rfl fun i _ => ?_
      rw [← intervalIntegral.integral_const_mul, ← intervalIntegral.integral_neg]
      congr 1
      funext s
      rw [wOp_apply]
      ring
    · intro i _
      have : (fun s => wOp (δ k) (U θ ((k : Nat), false) s) i * U θ ((k : Nat), true) (len k - s) i) =
          fun s => -(δ k i) * (U θ ((k : Nat), false) s i * U θ ((k : Nat), true) (len k - s) i) := by
        funext s
        rw [wOp_apply]
        ring
      rw [this]
      exact (continuous_const.mul (hc i)).intervalIntegrable _ _
  simp only [e, Finset.sum_neg_distrib]
  have e2 : ∀ k : Fin es.length, ∑ i, δ k i * (phi / (exactQ len (U θ) phiTot * total) *
      ∫ s in (0 : ℝ)..len k, U θ (k, false) s i * U θ (k, true) (len k - s) i) =
      phi / (exactQ len (U θ) phiTot * total) * ∑ i, δ k i *
        ∫ s in (0 : ℝ)..len k, U θ (k, false) s i * U θ (k, true) (len k - s) i := by
    intro k
    rw [Finset.mul_sum]
    exact Finset.sum_congr rfl fun i _ => by ring
  simp only [e2, ← Finset.mul_sum]
  generalize (∑ k : Fin es.length, ∑ i, δ k i *
        ∫ s in (0 : ℝ)..len k, U θ (k, false) s i * U θ (k, true) (len k - s) i) = S
  generalize exactQ len (U θ) phiTot = Q at *
  field_simp

/-- **C90**: the derivative of `-(phi/total) ln Q` of the exact problem with respect to a parameter
of the squared wavenumbers. -/
theorem C90_exact_stress (hr : readTopology es fuel = some (.ok P)) (hes : es ≠ [])
    (w : Nat → Fld n ℝ) (len kuhn : Nat → ℝ) (ksq : ℝ → Half N → ℝ) (phi phiTot total : ℝ)
    (U : ℝ → Pid → ℝ → Fld n ℝ)
    (hU : ∀ t, Exact en es P.vertices w len kuhn (ksq t) (U t)) (θ : ℝ) (dk : Half N → ℝ)
    (hdk : ∀ k, HasDerivAt (fun t => ksq t k) (dk k) θ) (hQ : exactQ len (U θ) phiTot ≠ 0) :
    HasDerivAt (fun t => -(phi / total) * Real.log (exactQ len (U t) phiTot))
      ((∑ k : Fin es.length, phi / (exactQ len (U θ) phiTot * total) * (kuhn k * kuhn k / 6 *
        ∫ s in (0 : ℝ)..len k, waveSum en (trueDKSq dk) (U θ (k, false) s)
          (U θ (k, true) (len k - s)))) / phiTot) θ := by
  have h1 := exactQ_deriv en hr hes hU (θ := θ) (Z' := fun k => kOp en (-(kuhn k ^ 2 / 6)) dk)
    (fun k => gen_deriv_ksq en (w k) (kuhn k) hdk) phiTot
  refine ((h1.log hQ).const_mul (-(phi / total))).congr_deriv ?_
  simp only [dot_kOp, intervalIntegral.integral_const_mul]
  have hn := n_ne en
  have e : ∀ k : Fin es.length, -(kuhn k ^ 2 / 6) * ((n : ℝ) * ∫ s in (0 : ℝ)..len k,
      waveSum en (trueDKSq dk) (U θ (k, false) s) (U θ (k, true) (len k - s))) =
      -(n : ℝ) * (kuhn k * kuhn k / 6 * ∫ s in (0 : ℝ)..len k,
        waveSum en (trueDKSq dk) (U θ (k, false) s) (U θ (k, true) (len k - s))) := fun k => by ring
  simp only [e, ← Finset.mul_sum]
  generalize (∑ k : Fin es.length, kuhn k * kuhn k / 6 * ∫ s in (0 : ℝ)..len k,
        waveSum en (trueDKSq dk) (U θ (k, false) s) (U θ (k, true) (len k - s))) = S
  generalize exactQ len (U θ) phiTot = Q at *
  field_simp

/-! ## Convergence -/

variable {w : Nat → Fld n ℝ} {len kuhn : Nat → ℝ} {ksq : Half N → ℝ} {U : Pid → ℝ → Fld n ℝ}

/-- A positive number below finitely many others. -/
theorem exists_below {ι : Type} [Finite ι] (δ : ι → ℝ) (h : ∀ x, 0 < δ x) :
    ∃ e, 0 < e ∧ ∀ x, e ≤ δ x := by
  have h1 : ∀ᶠ e in nhdsWithin (0 : ℝ) (Set.Ioi 0), ∀ x, e ≤ δ x :=
    Filter.eventually_all.2 fun x => by
      filter_upwards [Ioo_mem_nhdsGT (h x)] with e he
      exact he.2.le
  obtain ⟨e, he1, he2⟩ := (h1.and self_mem_nhdsWithin).exists
  exact ⟨e, he2, he1⟩

/-- **C89**, concentrations: for a polymer of any topology and any direction `δ` of change of the
fields, the spatial average of `δ` times the computed concentrations converges at fourth order to
the derivative `D` of `-(phi/total) ln Q` of the exact problem. -/
theorem C89_concentration (hr : readTopology es fuel = some (.ok P)) (hes : es ≠ []) (hk : Even ksq)
    (hlen : ∀ k, 0 ≤ len k) (w δ : Nat → Fld n ℝ) (phi phiTot total : ℝ)
    (U : ℝ → Pid → ℝ → Fld n ℝ)
    (hU : ∀ t, Exact en es P.vertices (fun k i => w k i + t * δ k i) len kuhn ksq (U t))
    (hQ : exactQ len (U 0) phiTot ≠ 0) :
    ∃ D, HasDerivAt (fun t => -(phi / total) * Real.log (exactQ len (U t) phiTot)) D 0 ∧
    ∃ C ε, 0 < ε ∧ ∀ mm : Nat → Nat, (∀ k, 1 ≤ mm k) → errSize es mm < ε →
      ∃ (st : Pid → Option (Nat → Fld n ℝ)) (Q : ℝ) (c : Nat → Fld n ℝ),
      polymerSolve (dftKin en) false (fine w len kuhn ksq mm) es P.vertices P.plan phiTot =
        .ok (st, Q) ∧
      (∀ k, k < es.length → blockConc false (fine w len kuhn ksq mm) st phi Q total k =
        some (c k)) ∧
      |(∑ k : Fin es.length, ∑ i, δ k i * c k i) / n / phiTot - D| ≤ C * errSize es mm := by
  refine ⟨_, C89_exact_concentration en hr hes w δ len kuhn ksq phi phiTot total U hU 0 hQ, ?_⟩
  have hU0 : Exact en es P.vertices w len kuhn ksq (U 0) := by simpa using hU 0
  have hconc := fun (x : Fin es.length × Fin n) =>
    C88_concentration en hr hes hk hlen hU0 phi phiTot total hQ x.1 x.1.2 x.2
  choose C ε hε hc using hconc
  obtain ⟨e, he, hle⟩ := exists_below ε hε
  refine ⟨(∑ k : Fin es.length, ∑ i, |δ k i| * C (k, i)) / n / |phiTot|, e, he,
    fun mm hmm hsmall => ?_⟩
  have hP := fine_ok en hr w len kuhn ksq hmm
  obtain ⟨_, hv, hsch⟩ := plan_facts hP
  obtain ⟨st, Q, hs⟩ := C53_solve_succeeds hP hes phiTot
  obtain ⟨hd, _⟩ := polymerSolve_inv hP hes hs
  set c : Nat → Fld n ℝ := fun k => concThread (2 * mm k + 1) (len k / ((2 * mm k : Nat) : ℝ))
    (phi / (Q * total)) (solveFrom (dftKin en) false (fine w len kuhn ksq mm) es P.vertices (k, false)
      (headOf st (k, false))) (solveFrom (dftKin en) false (fine w len kuhn ksq mm) es P.vertices
      (k, true) (headOf st (k, true))) with hcdef
  have hbc : ∀ k, k < es.length →
      blockConc false (fine w len kuhn ksq mm) st phi Q total k = some (c k) := by
    intro k hk
    unfold blockConc
    rw [st_eq hd ((hsch.complete (k, false)).2 hk), st_eq hd ((hsch.complete (k, true)).2 hk)]
    rfl
  refine ⟨st, Q, c, hs, hbc, ?_⟩
  have hn : |(n : ℝ)| = n := abs_of_nonneg (Nat.cast_nonneg n)
  rw [← sub_div, ← sub_div, ← Finset.sum_sub_distrib, abs_div, abs_div, hn, div_mul_eq_mul_div,
    div_mul_eq_mul_div]
  gcongr
  refine (Finset.abs_sum_le_sum_abs _ _).trans ?_
  rw [Finset.sum_mul]
  refine Finset.sum_le_sum fun k _ => ?_
  rw [← Finset.sum_sub_distrib, Finset.sum_mul]
  refine (Finset.abs_sum_le_sum_abs _ _).trans (Finset.sum_le_sum fun i _ => ?_)
  rw [← mul_sub, abs_mul, mul_assoc]
  apply mul_le_mul_of_nonneg_left _ (abs_nonneg _)
  obtain ⟨st', Q', c', h1, h2, h3⟩ := hc (k, i) mm hmm (hsmall.trans_le (hle _))
  rw [hs] at h1
  injection h1 with h1
  injection h1 with h4 h5
  rw [← h4, ← h5, hbc k k.2] at h2
  injection h2 with h2
  rw [← h2] at h3
  exact h3

/-! ### Stress -/

/-- Weights of the loop of `computeStressThread`. -/
theorem simpson_weights (ds : ℝ) (g : Nat → ℝ) (r : Nat) :
    ∑ j ∈ Finset.range (2 * (r + 1) + 1), g j * simpson (2 * (r + 1) + 1) ds j =
      ∑ p ∈ Finset.range (r + 1), ds / 3 * (g (2 * p) + 4 * g (2 * p + 1) + g (2 * p + 2)) := by
  have inner : ∀ r : Nat, ∑ j ∈ Finset.range (2 * r + 1),
      g (j + 1) * (if (j + 1) % 2 = 0 then ds / 3 * 2 else ds / 3 * 4) =
      ds / 3 * (∑ p ∈ Finset.range (r + 1), g (1 + 2 * p) * 4 +
        ∑ p ∈ Finset.range r, g (2 + 2 * p) * 2) := by
    intro r
    induction r with
    | zero => simp; ring
    | succ r ih =>
      rw [show 2 * (r + 1) + 1 = 2 * r + 1 + 1 + 1 by ring, Finset.sum_range_succ,
        Finset.sum_range_succ, ih, if_pos (by omega), if_neg (by omega),
        Finset.sum_range_succ (fun p => g (1 + 2 * p) * 4) (r + 1),
        Finset.sum_range_succ (fun p => g (2 + 2 * p) * 2) r,
        show 2 * r + 1 + 1 + 1 = 1 + 2 * (r + 1) by ring, show 2 * r + 1 + 1 = 2 + 2 * r by ring]
      ring
  have hsplit : ∑ j ∈ Finset.range (2 * (r + 1)), g j * simpson (2 * (r + 1) + 1) ds j =
      ∑ j ∈ Finset.range (2 * r + 1), g (j + 1) * simpson (2 * (r + 1) + 1) ds (j + 1) +
        g 0 * simpson (2 * (r + 1) + 1) ds 0 := Finset.sum_range_succ' _ (2 * r + 1)
  rw [← Finset.mul_sum, ← simpson_order_sum g r, Finset.sum_range_succ, hsplit]
  have e : ∑ j ∈ Finset.range (2 * r + 1), g (j + 1) * simpson (2 * (r + 1) + 1) ds (j + 1) =
      ∑ j ∈ Finset.range (2 * r + 1),
        g (j + 1) * (if (j + 1) % 2 = 0 then ds / 3 * 2 else ds / 3 * 4) := by
    refine Finset.sum_congr rfl fun j hj => ?_
    rw [Finset.mem_range] at hj
    unfold simpson
    rw [if_pos (by omega)]
  have e0 : simpson (2 * (r + 1) + 1) ds 0 = ds / 3 := by simp [simpson]
  have e1 : simpson (2 * (r + 1) + 1) ds (2 * (r + 1)) = ds / 3 := by simp [simpson]
  rw [e, inner r, e0, e1]
  ring

/-- `waveSum` as a double sum over the mesh. -/
theorem waveSum_double (d : Half N → ℝ) (x y : Fld n ℝ) : waveSum en d x y =
    ∑ i, ∑ j, waveSum en d (Pi.single i 1) (Pi.single j 1) * (x i * y j) := by
  have hx : ∀ (x : Fld n ℝ) (k : Half N), r2c en x k =
      ∑ i, (x i : ℂ) * r2c en (Pi.single i 1 : Fld n ℝ) k := by
    intro x k
    have h1 := (r2cL en k).toLinearMap.pi_apply_eq_sum_univ x
    have e : ∀ i : Fin n, (fun j => if i = j then (1 : ℝ) else 0) = Pi.single i 1 := by
      intro i; funext j; simp [Pi.single_apply, eq_comm]
    simp only [e, ContinuousLinearMap.coe_coe, r2cL_apply, Complex.real_smul] at h1
    exact h1
  have hre : ∀ (x : Fld n ℝ) (k : Half N), (r2c en x k).re =
      ∑ i, x i * (r2c en (Pi.single i 1 : Fld n ℝ) k).re := by
    intro x k
    conv_lhs => rw [hx x k]
    rw [Complex.re_sum]
    exact Finset.sum_congr rfl fun i _ => by simp
  have him : ∀ (x : Fld n ℝ) (k : Half N), (r2c en x k).im =
      ∑ i, x i * (r2c en (Pi.single i 1 : Fld n ℝ) k).im := by
    intro x k
    conv_lhs => rw [hx x k]
    rw [Complex.im_sum]
    exact Finset.sum_congr rfl fun i _ => by simp
  have h1 : ∀ i j, waveSum en d (Pi.single i 1 : Fld n ℝ) (Pi.single j 1) * (x i * y j) =
      ∑ k : Half N, (y j * (r2c en (Pi.single j 1 : Fld n ℝ) k).re *
        (x i * (r2c en (Pi.single i 1 : Fld n ℝ) k).re) +
        y j * (r2c en (Pi.single j 1 : Fld n ℝ) k).im *
        (x i * (r2c en (Pi.single i 1 : Fld n ℝ) k).im)) * d k := by
    intro i j
    unfold waveSum
    rw [Finset.sum_mul]
    exact Finset.sum_congr rfl fun k _ => by ring
  simp only [h1]
  unfold waveSum
  have h2 : ∀ i : Fin n, (∑ j, ∑ k : Half N, (y j * (r2c en (Pi.single j 1 : Fld n ℝ) k).re *
        (x i * (r2c en (Pi.single i 1 : Fld n ℝ) k).re) +
        y j * (r2c en (Pi.single j 1 : Fld n ℝ) k).im *
        (x i * (r2c en (Pi.single i 1 : Fld n ℝ) k).im)) * d k) =
      ∑ k : Half N, ((r2c en y k).re * (x i * (r2c en (Pi.single i 1 : Fld n ℝ) k).re) +
        (r2c en y k).im * (x i * (r2c en (Pi.single i 1 : Fld n ℝ) k).im)) * d k := by
    intro i
    rw [Finset.sum_comm]
    refine Finset.sum_congr rfl fun k _ => ?_
    rw [hre y k, him y k, ← Finset.sum_mul, Finset.sum_add_distrib, ← Finset.sum_mul,
      ← Finset.sum_mul]
  simp only [h2]
  rw [Finset.sum_comm]
  refine Finset.sum_congr rfl fun k _ => ?_
  rw [← Finset.sum_mul, Finset.sum_add_distrib, ← Finset.mul_sum, ← Finset.mul_sum, ← hre x k,
    ← him x k]

/-- The stress of a block as a double sum of Simpson sums. -/
theorem stressThread_double (mm : Nat) (hm : 1 ≤ mm) (ds kuhn pre : ℝ) (d : Half N → ℝ)
    (q0 q1 : Nat → Fld n ℝ) :
    stressThread en (2 * mm + 1) ds kuhn d pre q0 q1 = pre * (kuhn * kuhn / 6 *
      ∑ i, ∑ j, waveSum en d (Pi.single i 1) (Pi.single j 1) *
        ∑ p ∈ Finset.range mm, ds / 3 * (q0 (2 * p) i * q1 (2 * mm - 2 * p) j +
          4 * (q0 (2 * p + 1) i * q1 (2 * mm - (2 * p + 1)) j) +
          q0 (2 * p + 2) i * q1 (2 * mm - (2 * p + 2)) j)) := by
  obtain ⟨r, rfl⟩ : ∃ r, mm = r + 1 := ⟨mm - 1, by omega⟩
  unfold stressThread
  simp only [accum_eq, zero_add, Nat.add_sub_cancel]
  rw [Finset.sum_neg_distrib]
  have h1 : ∑ j : Fin (2 * (r + 1) + 1), waveSum en d (q0 j) (q1 (2 * (r + 1) - j)) *
      (kuhn * kuhn / 6 * simpson (2 * (r + 1) + 1) ds j) = kuhn * kuhn / 6 *
      ∑ p ∈ Finset.range (r + 1), ds / 3 * (waveSum en d (q0 (2 * p)) (q1 (2 * (r + 1) - 2 * p)) +
        4 * waveSum en d (q0 (2 * p + 1)) (q1 (2 * (r + 1) - (2 * p + 1))) +
        waveSum en d (q0 (2 * p + 2)) (q1 (2 * (r + 1) - (2 * p + 2)))) := by
    rw [← simpson_weights ds (fun j => waveSum en d (q0 j) (q1 (2 * (r + 1) - j))) r, Finset.mul_sum,
      ← Fin.sum_univ_eq_sum_range (fun j => kuhn * kuhn / 6 *
        (waveSum en d (q0 j) (q1 (2 * (r + 1) - j)) * simpson (2 * (r + 1) + 1) ds j))]
    exact Finset.sum_congr rfl fun j _ => by ring
  rw [h1]
  have h2 : ∑ p ∈ Finset.range (r + 1), ds / 3 *
      (waveSum en d (q0 (2 * p)) (q1 (2 * (r + 1) - 2 * p)) +
        4 * waveSum en d (q0 (2 * p + 1)) (q1 (2 * (r + 1) - (2 * p + 1))) +
        waveSum en d (q0 (2 * p + 2)) (q1 (2 * (r + 1) - (2 * p + 2)))) =
      ∑ i, ∑ j, waveSum en d (Pi.single i 1) (Pi.single j 1) *
        ∑ p ∈ Finset.range (r + 1), ds / 3 * (q0 (2 * p) i * q1 (2 * (r + 1) - 2 * p) j +
          4 * (q0 (2 * p + 1) i * q1 (2 * (r + 1) - (2 * p + 1)) j) +
          q0 (2 * p + 2) i * q1 (2 * (r + 1) - (2 * p + 2)) j) := by
    simp only [Finset.mul_sum]
    rw [Finset.sum_congr rfl fun i _ => Finset.sum_comm, Finset.sum_comm]
    refine Finset.sum_congr rfl fun p _ => ?_
    rw [waveSum_double en d (q0 (2 * p)), waveSum_double en d (q0 (2 * p + 1)),
      waveSum_double en d (q0 (2 * p + 2))]
    simp only [Finset.mul_sum, ← Finset.sum_add_distrib]
    refine Finset.sum_congr rfl fun i _ => Finset.sum_congr rfl fun j _ => ?_
    ring
  rw [h2]
  ring

/-- Convergence of the stress of one block. -/
theorem block_stress_error (hr : readTopology es fuel = some (.ok P)) (hes : es ≠ [])
    (hk : Even ksq) (hlen : ∀ k, 0 ≤ len k) (hU : Exact en es P.vertices w len kuhn ksq U)
    (phi phiTot total : ℝ) (hQe : exactQ len U phiTot ≠ 0) (d : Half N → ℝ) (k : Nat)
    (hkl : k < es.length) :
    ∃ C ε, 0 < ε ∧ ∀ mm : Nat → Nat, (∀ k, 1 ≤ mm k) → errSize es mm < ε → ∀ st Q,
      polymerSolve (dftKin en) false (fine w len kuhn ksq mm) es P.vertices P.plan phiTot =
        .ok (st, Q) → ∃ s,
      blockStress en false (fine w len kuhn ksq mm) kuhn es P.vertices d st phi Q total k = some s ∧
      |s - phi / (exactQ len U phiTot * total) * (kuhn k * kuhn k / 6 *
        ∫ s in (0 : ℝ)..len k, waveSum en d (U (k, false) s) (U (k, true) (len k - s)))| ≤
          C * errSize es mm := by
  obtain ⟨CQ, hCQ, hQ⟩ := Q_error en hr hes hk hlen hU phiTot
  choose S hS hpair using fun i i' => pair_error en hr hk hlen hU k hkl i i'
  set M : Fin n → Fin n → ℝ := fun i j => waveSum en d (Pi.single i 1) (Pi.single j 1) with hM
  set S0 := |kuhn k * kuhn k / 6| * ∑ i, ∑ j, |M i j| * S i j with hS0d
  have hS0 : 0 ≤ S0 := mul_nonneg (abs_nonneg _) (Finset.sum_nonneg fun i _ =>
    Finset.sum_nonneg fun j _ => mul_nonneg (abs_nonneg _) (hS i j))
  set I := kuhn k * kuhn k / 6 *
    ∫ s in (0 : ℝ)..len k, waveSum en d (U (k, false) s) (U (k, true) (len k - s)) with hI
  refine ⟨|phi / total| * (2 / |exactQ len U phiTot| * S0 + |I| *
      (2 / |exactQ len U phiTot| / |exactQ len U phiTot|) * CQ),
    |exactQ len U phiTot| / 2 / (CQ + 1), by have := abs_pos.2 hQe; positivity,
    fun mm hmm hsmall st Q hs => ?_⟩
  have hP := fine_ok en hr w len kuhn ksq hmm
  obtain ⟨_, hv, hsch⟩ := plan_facts hP
  obtain ⟨hd, _⟩ := polymerSolve_inv hP hes hs
  have es0 := st_eq hd ((hsch.complete (k, false)).2 hkl)
  have es1 := st_eq hd ((hsch.complete (k, true)).2 hkl)
  refine ⟨stressThread en (2 * mm k + 1) (len k / ((2 * mm k : Nat) : ℝ)) (kuhn k) d
    (phi / (Q * total)) _ _, by unfold blockStress; rw [es0, es1]; rfl, ?_⟩
  rw [stressThread_double en (mm k) (hmm k)]
  refine quot_error hQe hCQ hS0 (errSize_nonneg es mm) hsmall (hQ mm hmm st Q hs) ?_
  have hIe : I = kuhn k * kuhn k / 6 * ∑ i, ∑ j, M i j *
      ∫ s in (0 : ℝ)..len k, U (k, false) s i * U (k, true) (len k - s) j := by
    have hc : ∀ i j, Continuous fun s : ℝ => U (k, false) s i * U (k, true) (len k - s) j := fun i j =>
      ((mde_smooth en (hU.mde (k, false) hkl) i).mul
        ((mde_smooth en (hU.mde (k, true) hkl) j).comp
          (contDiff_const.sub contDiff_id))).continuous
    rw [hI]
    congr 1
    simp only [waveSum_double en d (U (k, false) _)]
    rw [intervalIntegral.integral_finsetSum]
    · refine Finset.sum_congr rfl fun i _ => ?_
      rw [intervalIntegral.integral_finsetSum]
      · refine Finset.sum_congr rfl fun j _ => ?_
        rw [intervalIntegral.integral_const_mul]
      · intro j _
        exact (continuous_const.mul (hc i j)).intervalIntegrable _ _
    · intro i _
      exact (continuous_finsetSum _ fun j _ => continuous_const.mul (hc i j)).intervalIntegrable _ _
  rw [hIe, ← mul_sub, abs_mul, hS0d, mul_assoc]
  apply mul_le_mul_of_nonneg_left _ (abs_nonneg _)
  rw [← Finset.sum_sub_distrib, Finset.sum_mul]
  refine (Finset.abs_sum_le_sum_abs _ _).trans (Finset.sum_le_sum fun i _ => ?_)
  rw [← Finset.sum_sub_distrib, Finset.sum_mul]
  refine (Finset.abs_sum_le_sum_abs _ _).trans (Finset.sum_le_sum fun j _ => ?_)
  rw [← mul_sub, abs_mul, mul_assoc]
  exact mul_le_mul_of_nonneg_left (hpair i j mm hmm st hd _ _ es0 es1) (abs_nonneg _)

/-- **C90**: limit of the stress computed with an arbitrary array `d` in place of `dKSq`. -/
theorem C90_stress_limit (hr : readTopology es fuel = some (.ok P)) (hes : es ≠ [])
    (hk : Even ksq) (hlen : ∀ k, 0 ≤ len k) (hU : Exact en es P.vertices w len kuhn ksq U)
    (phi phiTot total : ℝ) (hQ : exactQ len U phiTot ≠ 0) (d : Half N → ℝ) :
    ∃ C ε, 0 < ε ∧ ∀ mm : Nat → Nat, (∀ k, 1 ≤ mm k) → errSize es mm < ε →
      ∃ (st : Pid → Option (Nat → Fld n ℝ)) (Q s : ℝ),
      polymerSolve (dftKin en) false (fine w len kuhn ksq mm) es P.vertices P.plan phiTot =
        .ok (st, Q) ∧
      polymerStress en false (fine w len kuhn ksq mm) kuhn es P.vertices d st phi Q total =
        some s ∧
      |s / phiTot - (∑ k : Fin es.length, phi / (exactQ len U phiTot * total) *
        (kuhn k * kuhn k / 6 * ∫ s in (0 : ℝ)..len k, waveSum en d (U (k, false) s)
          (U (k, true) (len k - s)))) / phiTot| ≤ C * errSize es mm := by
  choose C ε hε hc using fun k : Fin es.length =>
    block_stress_error en hr hes hk hlen hU phi phiTot total hQ d k k.2
  obtain ⟨e, he, hle⟩ := exists_below ε hε
  refine ⟨(∑ k : Fin es.length, C k) / |phiTot|, e, he, fun mm hmm hsmall => ?_⟩
  obtain ⟨st, Q, hs⟩ := C53_solve_succeeds (fine_ok en hr w len kuhn ksq hmm) hes phiTot
  choose s hs1 hs2 using fun k : Fin es.length => hc k mm hmm (hsmall.trans_le (hle k)) st Q hs
  set g : Nat → ℝ := fun k => if h : k < es.length then s ⟨k, h⟩ else 0 with hg
  have hgk : ∀ k : Fin es.length, g k = s k := fun k => by simp [hg]
  refine ⟨st, Q, _, hs, foldl_stress _ g _ (fun k hk => ?_) 0, ?_⟩
  · rw [List.mem_range] at hk
    have := hs1 ⟨k, hk⟩
    rw [hg]
    simp only [hk, dif_pos]
    exact this
  · have hsum : ((List.range es.length).map g).sum = ∑ k : Fin es.length, s k := by
      rw [← Finset.sum_congr rfl fun k _ => hgk k,
        ← List.sum_ofFn (f := fun k : Fin es.length => g k), List.ofFn_eq_map,
        ← List.map_coe_finRange_eq_range, List.map_map]
      rfl
    rw [hsum, zero_add, ← sub_div, ← Finset.sum_sub_distrib, abs_div, div_mul_eq_mul_div,
      Finset.sum_mul]
    gcongr
    exact (Finset.abs_sum_le_sum_abs _ _).trans (Finset.sum_le_sum fun k _ => hs2 k)

/-- **C90**, part that holds: for a polymer of any topology, if the array `dKSq` contains the
derivative of the squared wavenumber of each stored wave, twice for waves whose inverse is not
stored, the stress computed by the thread model converges at fourth order to the derivative `D` of
`-(phi/total) ln Q` of the exact problem. Missing: the array of the code (`C90_code_violated`). -/
theorem C90_stress_partial (hr : readTopology es fuel = some (.ok P)) (hes : es ≠ [])
    (hlen : ∀ k, 0 ≤ len k) (ksq : ℝ → Half N → ℝ) (phi phiTot total : ℝ)
    (U : ℝ → Pid → ℝ → Fld n ℝ)
    (hU : ∀ t, Exact en es P.vertices w len kuhn (ksq t) (U t)) (θ : ℝ) (hk : Even (ksq θ))
    (dk : Half N → ℝ) (hdk : ∀ k, HasDerivAt (fun t => ksq t k) (dk k) θ)
    (hQ : exactQ len (U θ) phiTot ≠ 0) :
    ∃ D, HasDerivAt (fun t => -(phi / total) * Real.log (exactQ len (U t) phiTot)) D θ ∧
    ∃ C ε, 0 < ε ∧ ∀ mm : Nat → Nat, (∀ k, 1 ≤ mm k) → errSize es mm < ε →
      ∃ (st : Pid → Option (Nat → Fld n ℝ)) (Q s : ℝ),
      polymerSolve (dftKin en) false (fine w len kuhn (ksq θ) mm) es P.vertices P.plan phiTot =
        .ok (st, Q) ∧
      polymerStress en false (fine w len kuhn (ksq θ) mm) kuhn es P.vertices (trueDKSq dk) st phi Q
        total = some s ∧
      |s / phiTot - D| ≤ C * errSize es mm :=
  ⟨_, C90_exact_stress en hr hes w len kuhn ksq phi phiTot total U hU θ dk hdk hQ,
    C90_stress_limit en hr hes hk hlen (hU θ) phi phiTot total hQ (trueDKSq dk)⟩

/-- **C90** for a unit cell: `r` and `kb` are the Bravais and reciprocal bases along a curve of unit
cells, `dr` the derivative of the first, `G` the (fixed) wavevectors; the derivatives of the squared
wavenumbers are those computed by `UnitCellBase::dksq`. -/
theorem C90_unit_cell_partial (hr : readTopology es fuel = some (.ok P)) (hes : es ≠ [])
    (hlen : ∀ k, 0 ≤ len k) (phi phiTot total : ℝ)
    (r kb : ℝ → Crystal.BasisVecs (m + 1)) (dr : Crystal.BasisVecs (m + 1)) (θ : ℝ)
    (hrd : ∀ i j, HasDerivAt (fun x => r x i j) (dr i j) θ)
    (hrec : ∀ᶠ x in nhds θ, Crystal.Reciprocal (r x) (kb x)) (G : Half N → Fin (m + 1) → Int)
    (hk : Even (fun q => Crystal.ksq (kb θ) (G q)))
    (U : ℝ → Pid → ℝ → Fld n ℝ)
    (hU : ∀ t, Exact en es P.vertices w len kuhn (fun q => Crystal.ksq (kb t) (G q)) (U t))
    (hQ : exactQ len (U θ) phiTot ≠ 0) :
    ∃ D, HasDerivAt (fun t => -(phi / total) * Real.log (exactQ len (U t) phiTot)) D θ ∧
    ∃ C ε, 0 < ε ∧ ∀ mm : Nat → Nat, (∀ k, 1 ≤ mm k) → errSize es mm < ε →
      ∃ (st : Pid → Option (Nat → Fld n ℝ)) (Q s : ℝ),
      polymerSolve (dftKin en) false (fine w len kuhn (fun q => Crystal.ksq (kb θ) (G q)) mm) es
        P.vertices P.plan phiTot = .ok (st, Q) ∧
      polymerStress en false (fine w len kuhn (fun q => Crystal.ksq (kb θ) (G q)) mm) kuhn es
        P.vertices (trueDKSq (fun q => Crystal.dksq (kb θ) dr (G q))) st phi Q total = some s ∧
      |s / phiTot - D| ≤ C * errSize es mm :=
  C90_stress_partial en hr hes hlen (fun t q => Crystal.ksq (kb t) (G q)) phi phiTot total U hU θ hk _
    (fun q => Crystal.C36_dksq r kb dr θ hrd hrec (G q)) hQ

/-- A homopolymer in arbitrary fields and a unit cell of variable length meets the hypotheses of
`C89_concentration` and `C90_stress_partial`. -/
theorem homopolymer_family (w : ℝ → Fld n ℝ) (L kuhn : ℝ) (ksq : ℝ → Half N → ℝ) :
    ∃ (P : Polymer) (U : ℝ → Pid → ℝ → Fld n ℝ), readTopology [(0, 1)] 4 = some (.ok P) ∧
      ∀ t, Exact en [(0, 1)] P.vertices (fun _ => w t) (fun _ => L) (fun _ => kuhn) (ksq t) (U t) ∧
        exactQ (fun _ => L) (U t) 1 ≠ 0 := by
  choose P U h1 h2 h3 using fun t => homopolymer_exact en (w t) L kuhn (ksq t)
  have hP : ∀ t, P t = P 0 := by
    intro t
    have := (h1 t).symm.trans (h1 0)
    injection this with this
    injection this with this
  exact ⟨P 0, U, h1 0, fun t => ⟨hP t ▸ h2 t, h3 t⟩⟩

/-! ### The array of the code -/

theorem waveSum_add_left (d : Half N → ℝ) (x x' y : Fld n ℝ) :
    waveSum en d (x + x') y = waveSum en d x y + waveSum en d x' y := by
  unfold waveSum
  rw [← Finset.sum_add_distrib]
  refine Finset.sum_congr rfl fun k _ => ?_
  rw [← r2cL_apply en k (x + x'), map_add, r2cL_apply, r2cL_apply, Complex.add_re, Complex.add_im]
  ring

theorem waveSum_comm (d : Half N → ℝ) (x y : Fld n ℝ) : waveSum en d x y = waveSum en d y x := by
  unfold waveSum
  exact Finset.sum_congr rfl fun k _ => by ring

theorem waveSum_smul_left (d : Half N → ℝ) (c : ℝ) (x y : Fld n ℝ) :
    waveSum en d (c • x) y = c * waveSum en d x y := by
  unfold waveSum
  rw [Finset.mul_sum]
  refine Finset.sum_congr rfl fun k _ => ?_
  rw [← r2cL_apply en k (c • x), map_smul, r2cL_apply, Complex.real_smul, Complex.re_ofReal_mul,
    Complex.im_ofReal_mul]
  ring

theorem waveSum_bound (d : Half N → ℝ) : ∃ K, 0 ≤ K ∧ ∀ x y : Fld n ℝ,
    |waveSum en d x y| ≤ K * (‖x‖ * ‖y‖) := by
  refine ⟨∑ i, ∑ j, |waveSum en d (Pi.single i 1 : Fld n ℝ) (Pi.single j 1)|,
    Finset.sum_nonneg fun _ _ => Finset.sum_nonneg fun _ _ => abs_nonneg _, fun x y => ?_⟩
  rw [waveSum_double, Finset.sum_mul]
  refine (Finset.abs_sum_le_sum_abs _ _).trans (Finset.sum_le_sum fun i _ => ?_)
  rw [Finset.sum_mul]
  refine (Finset.abs_sum_le_sum_abs _ _).trans (Finset.sum_le_sum fun j _ => ?_)
  rw [abs_mul, abs_mul]
  gcongr
  · exact norm_le_pi_norm x i
  · exact norm_le_pi_norm y j

/-- Second order remainder of the solution with unit initial value. -/
theorem exp_remainder (Z : Fld n ℝ →L[ℝ] Fld n ℝ) (v : Fld n ℝ) : ∃ C δ, 0 ≤ C ∧ 0 < δ ∧
    ∀ s : ℝ, |s| < δ → ‖exp (s • Z) v - v - s • Z v‖ ≤ C * s ^ 2 := by
  have h1 : (fun h : ℝ => exp (h • Z) - 1 - h • Z) =O[nhds 0] (fun h : ℝ => h ^ 2) := by
    have hp : ∀ k : Nat, 2 ≤ k → (fun h : ℝ => h ^ k) =O[nhds 0] (fun h : ℝ => h ^ 2) := by
      intro k hk
      refine Asymptotics.IsBigO.of_bound 1 ?_
      filter_upwards [Metric.ball_mem_nhds (0 : ℝ) one_pos] with h hh
      have : |h| < 1 := by simpa using hh
      rw [norm_pow, norm_pow, one_mul, Real.norm_eq_abs]
      exact pow_le_pow_of_le_one (abs_nonneg h) this.le hk
    have h2 := (jet_exp Z).trans (hp 5 (by norm_num))
    have hb : ∀ (k : Nat) (_ : 2 ≤ k) (X : Fld n ℝ →L[ℝ] Fld n ℝ),
        (fun h : ℝ => h ^ k • X) =O[nhds 0] (fun h : ℝ => h ^ 2) := by
      intro k hk X
      have h4 : (fun _ : ℝ => X) =O[nhds 0] (fun _ : ℝ => (1 : ℝ)) :=
        Asymptotics.isBigO_const_const _ one_ne_zero _
      simpa using (hp k hk).smul h4
    have h3 := ((h2.add (hb 2 le_rfl ((1 / 2 : ℝ) • Z ^ 2))).add
      (hb 3 (by norm_num) ((1 / 6 : ℝ) • Z ^ 3))).add (hb 4 (by norm_num) ((1 / 24 : ℝ) • Z ^ 4))
    refine h3.congr_left fun h => ?_
    simp only [J.poly, J.exp]
    abel
  obtain ⟨c, hc⟩ := h1.bound
  obtain ⟨δ, hδ, hb⟩ := Metric.eventually_nhds_iff.1 hc
  refine ⟨|c| * ‖v‖, δ, by positivity, hδ, fun s hs => ?_⟩
  have h2 := hb (y := s) (by simpa using hs)
  have h3 : exp (s • Z) v - v - s • Z v = (exp (s • Z) - 1 - s • Z) v := by
    simp [sub_apply, smul_apply, one_apply_eq_self]
  rw [h3]
  refine (ContinuousLinearMap.le_opNorm _ _).trans ?_
  have h4 : ‖exp (s • Z) - 1 - s • Z‖ ≤ |c| * s ^ 2 := by
    refine h2.trans ?_
    rw [Real.norm_of_nonneg (sq_nonneg s)]
    gcongr
    exact le_abs_self c
  calc _ ≤ |c| * s ^ 2 * ‖v‖ := by gcongr
    _ = _ := by ring

/-- For short chains the contour integral is different from zero if it is so in second order. -/
theorem contour_ne (d : Half N → ℝ) (Z : Fld n ℝ →L[ℝ] Fld n ℝ) (v : Fld n ℝ)
    (h0 : ∀ y, waveSum en d v y = 0) (hz : waveSum en d (Z v) (Z v) ≠ 0) :
    ∃ L0, 0 < L0 ∧ ∀ L, 0 < L → L < L0 →
      (∫ s in (0 : ℝ)..L, waveSum en d (exp (s • Z) v) (exp ((L - s) • Z) v)) ≠ 0 := by
  obtain ⟨C, δ, hC, hδ, hR⟩ := exp_remainder Z v
  obtain ⟨K, hK, hB⟩ := waveSum_bound en d (n := n)
  set z := Z v with hzd
  set K' := K * (2 * C * ‖z‖ + C ^ 2) with hK'
  have hK'0 : 0 ≤ K' := by positivity
  have hpos := abs_pos.2 hz
  refine ⟨min (min δ 1) (|waveSum en d z z| / (6 * (K' + 1))), by positivity, fun L hL hL0 hI => ?_⟩
  have hL1 : L < δ := hL0.trans_le ((min_le_left _ _).trans (min_le_left _ _))
  have hL2 : L < 1 := hL0.trans_le ((min_le_left _ _).trans (min_le_right _ _))
  have hL3 : L < |waveSum en d z z| / (6 * (K' + 1)) := hL0.trans_le (min_le_right _ _)
  have hpt : ∀ s, 0 ≤ s → s ≤ L → |waveSum en d (exp (s • Z) v) (exp ((L - s) • Z) v) -
      s * (L - s) * waveSum en d z z| ≤ K' * L ^ 3 := by
    intro s hs hsL
    set t := L - s with ht
    have ht0 : 0 ≤ t := by rw [ht]; linarith
    have htL : t ≤ L := by rw [ht]; linarith
    set R := fun s : ℝ => exp (s • Z) v - v - s • z with hRd
    have e : ∀ s : ℝ, exp (s • Z) v = v + (s • z + R s) := fun s => by simp [hRd]
    have hRs : ‖R s‖ ≤ C * s ^ 2 := hR s (by rw [abs_of_nonneg hs]; linarith)
    have hRt : ‖R t‖ ≤ C * t ^ 2 := hR t (by rw [abs_of_nonneg ht0]; linarith)
    have ex : waveSum en d (exp (s • Z) v) (exp (t • Z) v) - s * t * waveSum en d z z =
        s * waveSum en d z (R t) + t * waveSum en d (R s) z + waveSum en d (R s) (R t) := by
      rw [e s, e t, waveSum_add_left, h0, waveSum_comm, waveSum_add_left, h0, waveSum_comm]
      rw [waveSum_add_left, waveSum_smul_left, waveSum_comm en d z, waveSum_comm en d (R s),
        waveSum_add_left, waveSum_add_left, waveSum_smul_left, waveSum_smul_left,
        waveSum_comm en d (R t) z, waveSum_comm en d z (R s), waveSum_comm en d (R t) (R s)]
      ring
    rw [ex]
    have b1 := hB z (R t)
    have b2 := hB (R s) z
    have b3 := hB (R s) (R t)
    have nz := norm_nonneg z
    have a1 : |s * waveSum en d z (R t)| ≤ K * (C * ‖z‖) * L ^ 3 := by
      rw [abs_mul, abs_of_nonneg hs]
      calc s * |waveSum en d z (R t)| ≤ L * (K * (‖z‖ * (C * L ^ 2))) := by
            gcongr
            refine b1.trans ?_
            gcongr
            exact hRt.trans (by gcongr)
        _ = _ := by ring
    have a2 : |t * waveSum en d (R s) z| ≤ K * (C * ‖z‖) * L ^ 3 := by
      rw [abs_mul, abs_of_nonneg ht0]
      calc t * |waveSum en d (R s) z| ≤ L * (K * ((C * L ^ 2) * ‖z‖)) := by
            gcongr
            refine b2.trans ?_
            gcongr
            exact hRs.trans (by gcongr)
        _ = _ := by ring
    have a3 : |waveSum en d (R s) (R t)| ≤ K * C ^ 2 * L ^ 3 := by
      calc |waveSum en d (R s) (R t)| ≤ K * ((C * L ^ 2) * (C * L ^ 2)) := by
            refine b3.trans ?_
            gcongr
            · exact hRs.trans (by gcongr)
            · exact hRt.trans (by gcongr)
        _ = K * C ^ 2 * L ^ 3 * L := by ring
        _ ≤ K * C ^ 2 * L ^ 3 * 1 := by gcongr
        _ = _ := by ring
    calc _ ≤ |s * waveSum en d z (R t)| + |t * waveSum en d (R s) z| +
          |waveSum en d (R s) (R t)| := abs_add_three _ _ _
      _ ≤ K * (C * ‖z‖) * L ^ 3 + K * (C * ‖z‖) * L ^ 3 + K * C ^ 2 * L ^ 3 := by gcongr
      _ = K' * L ^ 3 := by rw [hK']; ring
  have hcu : ∀ i, Continuous fun s : ℝ => exp (s • Z) v i := by
    intro i
    have h1 : Continuous fun s : ℝ => exp (s • Z) := exp_cont.comp (by fun_prop)
    have h2 : Continuous fun s : ℝ => exp (s • Z) v := by fun_prop
    exact (continuous_apply i).comp h2
  have hc1 : Continuous fun s : ℝ => waveSum en d (exp (s • Z) v) (exp ((L - s) • Z) v) := by
    simp only [waveSum_double en d (exp (_ • Z) v)]
    refine continuous_finsetSum _ fun i _ => continuous_finsetSum _ fun j _ =>
      continuous_const.mul ((hcu i).mul ((hcu j).comp (continuous_const.sub continuous_id)))
  have hint := intervalIntegral.norm_integral_le_of_norm_le_const (a := (0 : ℝ)) (b := L)
    (f := fun s => waveSum en d (exp (s • Z) v) (exp ((L - s) • Z) v) -
      s * (L - s) * waveSum en d z z) (C := K' * L ^ 3) (fun s hs => by
      rw [Set.uIoc_of_le hL.le] at hs
      exact hpt s hs.1.le hs.2)
  rw [intervalIntegral.integral_sub (hc1.intervalIntegrable _ _)
    ((by fun_prop : Continuous fun s : ℝ => s * (L - s) * waveSum en d z z).intervalIntegrable _ _),
    hI, intervalIntegral.integral_mul_const] at hint
  have hs3 : (∫ s in (0 : ℝ)..L, s * (L - s)) = L ^ 3 / 6 := by
    have hd : ∀ s ∈ Set.uIcc (0 : ℝ) L, HasDerivAt (fun s : ℝ => L * (s ^ 2 / 2) - s ^ 3 / 3)
        (s * (L - s)) s := by
      intro s _
      have h1 := (((hasDerivAt_pow 2 s).div_const 2).const_mul L).sub
        ((hasDerivAt_pow 3 s).div_const 3)
      refine h1.congr_deriv ?_
      norm_num
      ring
    rw [intervalIntegral.integral_eq_sub_of_hasDerivAt hd
      ((by fun_prop : Continuous fun s : ℝ => s * (L - s)).intervalIntegrable _ _)]
    ring
  rw [hs3, zero_sub, norm_neg, Real.norm_eq_abs, abs_mul, abs_of_nonneg (by positivity), sub_zero,
    abs_of_nonneg hL.le] at hint
  rw [lt_div_iff₀ (by positivity)] at hL3
  have hL4 : 0 < L ^ 3 := by positivity
  nlinarith [mul_pos hL4 hL]

theorem r2c_one (k : Half N) (hk : k.1 ≠ 0) : r2c en (fun _ => (1 : ℝ)) k = 0 := by
  unfold r2c
  have h1 : ∀ i, (((1 : ℝ) : ℂ)) * (starRingEnd ℂ) (wave k.1 (en i)) =
      (starRingEnd ℂ) (wave k.1 (en i)) := fun i => by simp
  rw [Finset.sum_congr rfl (fun i _ => h1 i), ← map_sum, Equiv.sum_comp en (fun x => wave k.1 x)]
  simp only [wave_comm k.1]
  rw [sum_wave, if_neg hk, map_zero, zero_mul]

theorem missed_ne {k : Half N} (h : Missed k) : k.1 ≠ 0 := by
  intro h0
  apply h.1
  rw [h0]
  simp

/-- **C90** is violated by the code on every mesh with at least three points in the last direction,
in any dimension: in any field that has a non-zero coefficient at a missed wave, and for any unit
cell parameter with which the squared wavenumbers of the missed waves decrease, the stress of every
sufficiently short homopolymer converges, with the number of contour steps, to a value `S` that is
not the derivative `D` of the free energy. -/
theorem C90_code_violated (w : Fld n ℝ) (kuhn phi phiTot total θ : ℝ) (ksq : ℝ → Half N → ℝ)
    (hk : Even (ksq θ)) (dk : Half N → ℝ) (hdk : ∀ k, HasDerivAt (fun t => ksq t k) (dk k) θ)
    (hneg : ∀ k, Missed k → dk k < 0) (hc : ∃ k, Missed k ∧ r2c en w k ≠ 0)
    (hkuhn : kuhn ≠ 0) (hphi : phi ≠ 0) (hphiTot : phiTot ≠ 0) (htot : total ≠ 0) :
    ∃ L0, 0 < L0 ∧ ∀ L, 0 < L → L < L0 →
    ∃ (P : Polymer) (U : ℝ → Pid → ℝ → Fld n ℝ), readTopology [(0, 1)] 4 = some (.ok P) ∧
      (∀ t, Exact en [(0, 1)] P.vertices (fun _ => w) (fun _ => L) (fun _ => kuhn) (ksq t) (U t)) ∧
      ∃ D S, HasDerivAt (fun t => -(phi / total) * Real.log (exactQ (fun _ => L) (U t) phiTot)) D θ ∧
        S ≠ D ∧
        ∃ C ε, 0 < ε ∧ ∀ mm : Nat → Nat, (∀ k, 1 ≤ mm k) → errSize [(0, 1)] mm < ε →
          ∃ (st : Pid → Option (Nat → Fld n ℝ)) (Q s : ℝ),
          polymerSolve (dftKin en) false
            (fine (fun _ => w) (fun _ => L) (fun _ => kuhn) (ksq θ) mm) [(0, 1)] P.vertices P.plan
            phiTot = .ok (st, Q) ∧
          polymerStress en false (fine (fun _ => w) (fun _ => L) (fun _ => kuhn) (ksq θ) mm)
            (fun _ => kuhn) [(0, 1)] P.vertices (codeDKSq dk) st phi Q total = some s ∧
          |s / phiTot - S| ≤ C * errSize [(0, 1)] mm := by
  set Z := gen en w kuhn (ksq θ) with hZ
  set e : Half N → ℝ := fun k => if Missed k then dk k else 0 with he
  have hone : ∀ y, waveSum en e (fun _ => (1 : ℝ)) y = 0 := by
    intro y
    unfold waveSum
    refine Finset.sum_eq_zero fun k _ => ?_
    by_cases hm : Missed k
    · rw [r2c_one en k (missed_ne hm)]; simp
    · simp [he, hm]
  have hZ1 : ∀ k, Missed k → r2c en (Z (fun _ => 1)) k = -r2c en w k := by
    intro k hm
    have e1 : Z (fun _ => 1) = -w + kOp en (-(kuhn ^ 2 / 6)) (ksq θ) (fun _ => 1) := by
      funext i
      rw [hZ]
      show wOp w (fun _ => 1) i + _ = _
      rw [wOp_apply]
      simp
    have e2 : kOp en (-(kuhn ^ 2 / 6)) (ksq θ) (fun _ : Fin n => (1 : ℝ)) =
        fun i => dftKin en (ksq θ) (fun _ => 1) i * (-(kuhn ^ 2 / 6)) := by
      funext i; rw [kOp_apply, mul_comm]
    rw [e1, ← r2cL_apply, map_add, map_neg, r2cL_apply, r2cL_apply, e2, r2c_smul, r2c_dftKin en hk,
      r2c_one en k (missed_ne hm)]
    simp
  have hzz : waveSum en e (Z (fun _ => 1)) (Z (fun _ => 1)) ≠ 0 := by
    have e1 : waveSum en e (Z (fun _ => 1)) (Z (fun _ => 1)) =
        ∑ k : Half N, ((r2c en w k).re * (r2c en w k).re + (r2c en w k).im * (r2c en w k).im) *
          e k := by
      unfold waveSum
      refine Finset.sum_congr rfl fun k _ => ?_
      by_cases hm : Missed k
      · rw [hZ1 k hm]; simp
      · simp [he, hm]
    rw [e1]
    have hle : ∀ k : Half N, ((r2c en w k).re * (r2c en w k).re +
        (r2c en w k).im * (r2c en w k).im) * e k ≤ 0 := by
      intro k
      refine mul_nonpos_of_nonneg_of_nonpos (add_nonneg (mul_self_nonneg _) (mul_self_nonneg _)) ?_
      by_cases hm : Missed k
      · simp only [he, hm, if_true]; exact (hneg k hm).le
      · simp [he, hm]
    obtain ⟨k, hm, hne⟩ := hc
    refine (lt_of_lt_of_le (Finset.sum_lt_sum (fun k _ => hle k)
      ⟨k, Finset.mem_univ k, ?_⟩) (by simp : ∑ _k : Half N, (0 : ℝ) ≤ 0)).ne
    have : 0 < (r2c en w k).re * (r2c en w k).re + (r2c en w k).im * (r2c en w k).im := by
      have := Complex.normSq_pos.2 hne
      rwa [Complex.normSq_apply] at this
    have h2 : e k < 0 := by simp only [he, hm, if_true]; exact hneg k hm
    exact mul_neg_of_pos_of_neg this h2
  obtain ⟨L0, hL0, hcont⟩ := contour_ne en e Z (fun _ => 1) hone hzz
  refine ⟨L0, hL0, fun L hL hLt => ?_⟩
  obtain ⟨P, U, hP, hs⟩ : ∃ (P : Polymer) (U : ℝ → Pid → ℝ → Fld n ℝ),
      readTopology [(0, 1)] 4 = some (.ok P) ∧ ∀ t,
      Exact en [(0, 1)] P.vertices (fun _ => w) (fun _ => L) (fun _ => kuhn) (ksq t) (U t) ∧
        exactQ (fun _ => L) (U t) 1 ≠ 0 := homopolymer_family en (fun _ => w) L kuhn ksq
  have hsrc : ∀ d, sources [(0, 1)] P.vertices (0, d) = [] := by
    obtain ⟨P0, hP0, hs0⟩ : ∃ P : Polymer, readTopology [(0, 1)] 4 = some (.ok P) ∧
        ∀ d, sources [(0, 1)] P.vertices (0, d) = [] := ⟨_, rfl, fun d => by cases d <;> rfl⟩
    rw [hP] at hP0
    injection hP0 with hP0
    injection hP0 with hP0
    rw [hP0]
    exact hs0
  have hUe : ∀ d s, U θ (0, d) s = exp (s • Z) (fun _ => 1) := by
    intro d s
    have h1 : U θ (0, d) 0 = fun _ => 1 := by
      funext i
      rw [(hs θ).1.head (0, d) (by simp) i, hsrc d]
      rfl
    rw [mde_eq_exp en ((hs θ).1.mde (0, d) (by simp)) s, h1]
  have hQ : exactQ (fun _ => L) (U θ) phiTot ≠ 0 := by
    have h1 := (hs θ).2
    unfold exactQ at h1 ⊢
    rw [div_one] at h1
    exact div_ne_zero h1 hphiTot
  refine ⟨P, U, hP, fun t => (hs t).1, _, _, C90_exact_stress en hP (by simp) (fun _ => w)
    (fun _ => L) (fun _ => kuhn) ksq phi phiTot total U (fun t => (hs t).1) θ dk hdk hQ, ?_,
    C90_stress_limit en hP (by simp) hk (fun _ => hL.le) (hs θ).1 phi phiTot total hQ (codeDKSq dk)⟩
  intro hEq
  rw [div_left_inj' hphiTot] at hEq
  have h1 : ∀ f : Fin ([((0 : Nat), 1)] : List Edge).length → ℝ, ∑ k, f k = f ⟨0, by simp⟩ :=
    fun f => Fin.sum_univ_one f
  replace hEq := (h1 _).symm.trans (hEq.trans (h1 _))
  simp only [hUe] at hEq
  have hpre : phi / (exactQ (fun _ => L) (U θ) phiTot * total) ≠ 0 :=
    div_ne_zero hphi (mul_ne_zero hQ htot)
  have h2 := mul_left_cancel₀ (by positivity : kuhn * kuhn / 6 ≠ 0) (mul_left_cancel₀ hpre hEq)
  apply hcont L hL hLt
  have hcu : ∀ i, Continuous fun s : ℝ => exp (s • Z) (fun _ : Fin n => (1 : ℝ)) i := by
    intro i
    have h1 : Continuous fun s : ℝ => exp (s • Z) := exp_cont.comp (by fun_prop)
    have h2 : Continuous fun s : ℝ => exp (s • Z) (fun _ : Fin n => (1 : ℝ)) := by fun_prop
    exact (continuous_apply i).comp h2
  have hc1 : ∀ d : Half N → ℝ, Continuous fun s : ℝ =>
      waveSum en d (exp (s • Z) (fun _ => 1)) (exp ((L - s) • Z) (fun _ => 1)) := by
    intro d
    simp only [waveSum_double en d (exp (_ • Z) _)]
    refine continuous_finsetSum _ fun i _ => continuous_finsetSum _ fun j _ =>
      continuous_const.mul ((hcu i).mul ((hcu j).comp (continuous_const.sub continuous_id)))
  have h3 : ∀ x y : Fld n ℝ, waveSum en e x y =
      waveSum en (trueDKSq dk) x y - waveSum en (codeDKSq dk) x y := by
    intro x y
    unfold waveSum
    rw [← Finset.sum_sub_distrib]
    refine Finset.sum_congr rfl fun k _ => ?_
    rw [codeDKSq_eq dk k]
    simp only [he]
    ring
  simp only [h3]
  rw [intervalIntegral.integral_sub ((hc1 _).intervalIntegrable _ _)
    ((hc1 _).intervalIntegrable _ _), h2, sub_self]

/-! ### Examples -/

example : Even (N := fun _ : Fin 1 => 4) (fun k => ((k.1 0).val : ℝ) ^ 2 / 1 ^ 2) ∧
    ∀ k : Half (fun _ : Fin 1 => 4), HasDerivAt (fun t : ℝ => ((k.1 0).val : ℝ) ^ 2 / t ^ 2)
      (-2 * ((k.1 0).val : ℝ) ^ 2) 1 := by
  constructor
  · intro k h h'
    have : ∀ x : ZMod 4, x.val ≤ 2 → (-x).val ≤ 2 → (-x).val = x.val := by decide
    show (((-k 0).val : ℝ)) ^ 2 / 1 ^ 2 = ((k 0).val : ℝ) ^ 2 / 1 ^ 2
    rw [this (k 0) h h']
  · intro k
    have := ((hasDerivAt_pow 2 (1 : ℝ)).inv (by norm_num)).const_mul (((k.1 0).val : ℝ) ^ 2)
    simp only [div_eq_mul_inv]
    refine this.congr_deriv ?_
    norm_num
    ring

/-- The field of a single mesh point meets the hypothesis of `C90_code_violated` on the fields, on
every mesh with at least three points in the last direction. -/
theorem point_field_missed (i0 : Fin n) (h3 : 3 ≤ N (Fin.last m)) :
    ∃ k : Half N, Missed k ∧ r2c en (fun i => if i = i0 then (1 : ℝ) else 0) k ≠ 0 := by
  have hv : (((N (Fin.last m) - 1) / 2 : Nat) : ZMod (N (Fin.last m))).val =
      (N (Fin.last m) - 1) / 2 := ZMod.val_cast_of_lt (by omega)
  refine ⟨⟨fun d => if h : d = Fin.last m then h ▸ (((N (Fin.last m) - 1) / 2 : Nat) :
    ZMod (N (Fin.last m))) else 0, ?_⟩, ⟨?_, ?_⟩, ?_⟩
  · show ZMod.val _ ≤ _
    simp only [dif_pos]
    rw [hv]; omega
  · show ZMod.val _ ≠ 0
    simp only [dif_pos]
    rw [hv]; omega
  · show _ - ZMod.val _ = _
    simp only [dif_pos]
    rw [hv]; omega
  · generalize hk : (⟨_, _⟩ : Half N) = k
    have hn : (n : ℂ) ≠ 0 := by exact_mod_cast n_ne en
    unfold r2c
    refine mul_ne_zero ?_ (by push_cast; exact one_div_ne_zero hn)
    have h1 : ∀ i, (((if i = i0 then (1 : ℝ) else 0) : ℝ) : ℂ) *
        (starRingEnd ℂ) (wave k.1 (en i)) =
        if i = i0 then (starRingEnd ℂ) (wave k.1 (en i0)) else 0 := by
      intro i
      split
      · rename_i h; rw [h]; simp
      · simp
    rw [Finset.sum_congr rfl (fun i _ => h1 i), Finset.sum_ite_eq', if_pos (Finset.mem_univ _)]
    simpa using wave_ne _ _

end Verif.Solver
