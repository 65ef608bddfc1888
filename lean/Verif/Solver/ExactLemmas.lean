import Verif.Solver.ConvProps
import Verif.Solver.DerivProps
import Mathlib.MeasureTheory.Integral.IntervalIntegral.FundThmCalculus
import Mathlib.MeasureTheory.Integral.DominatedConvergence

/-!
# Derivative of the partition function of the exact problem

The derivative of an exponential of operators (Duhamel), and its sum over the blocks of a polymer.
-/

set_option autoImplicit false
set_option linter.unusedSectionVars false

namespace Verif.Solver.Conv

open NormedSpace Filter Topology

variable {A : Type} [NormedRing A] [NormedAlgebra ℝ A] [CompleteSpace A]

theorem exp_line (X : A) (s : ℝ) : HasDerivAt (fun s : ℝ => exp (s • X)) (X * exp (s • X)) s :=
  hasDerivAt_exp_smul_const' (𝕂 := ℝ) X s

theorem exp_line_back (Y : A) (s : ℝ) :
    HasDerivAt (fun s : ℝ => exp ((1 - s) • Y)) (-(exp ((1 - s) • Y) * Y)) s := by
  have := (hasDerivAt_exp_smul_const (𝕂 := ℝ) Y (1 - s)).scomp s ((hasDerivAt_id s).const_sub 1)
  exact this.congr_deriv (neg_one_smul ℝ _)

/-- Difference of two exponentials. -/
theorem exp_sub_exp (X Y : A) :
    exp Y - exp X = ∫ s in (0 : ℝ)..1, exp ((1 - s) • Y) * (Y - X) * exp (s • X) := by
  have hd : ∀ s ∈ Set.uIcc (0 : ℝ) 1, HasDerivAt (fun s : ℝ => -(exp ((1 - s) • Y) * exp (s • X)))
      (exp ((1 - s) • Y) * (Y - X) * exp (s • X)) s := by
    intro s _
    refine ((exp_line_back Y s).mul (exp_line X s)).neg.congr_deriv ?_
    noncomm_ring
  have hc : Continuous (fun s : ℝ => exp ((1 - s) • Y) * (Y - X) * exp (s • X)) := by
    have h1 : Continuous (fun s : ℝ => exp ((1 - s) • Y)) := exp_cont.comp (by fun_prop)
    have h2 : Continuous (fun s : ℝ => exp (s • X)) := exp_cont.comp (by fun_prop)
    fun_prop
  rw [intervalIntegral.integral_eq_sub_of_hasDerivAt hd (hc.intervalIntegrable _ _)]
  simp
  abel

/-- Derivative of an exponential of operators that depend on a parameter. -/
theorem hasDerivAt_exp {Z : ℝ → A} {Z' : A} {θ : ℝ} (h : HasDerivAt Z Z' θ) :
    HasDerivAt (fun t => exp (Z t))
      (∫ s in (0 : ℝ)..1, exp ((1 - s) • Z θ) * Z' * exp (s • Z θ)) θ := by
  have hF : HasFDerivAt (exp : A → A) (fderiv ℝ exp (Z θ)) (Z θ) :=
    ((exp_analytic (𝕂 := ℝ) (Z θ)).differentiableAt).hasFDerivAt
  have h1 := hF.comp_hasDerivAt θ h
  suffices e : ∀ X Y : A, fderiv ℝ exp X Y =
      ∫ s in (0 : ℝ)..1, exp ((1 - s) • X) * Y * exp (s • X) by
    rw [← e]; exact h1
  intro X Y
  have hX : HasFDerivAt (exp : A → A) (fderiv ℝ exp X) (X + (0 : ℝ) • Y) := by
    rw [zero_smul, add_zero]
    exact ((exp_analytic (𝕂 := ℝ) X).differentiableAt).hasFDerivAt
  have hl : HasDerivAt (fun t : ℝ => X + t • Y) Y 0 := by
    have := ((hasDerivAt_id (0 : ℝ)).smul_const Y).const_add X
    simpa using this
  have h2 := hX.comp_hasDerivAt 0 hl
  rw [hasDerivAt_iff_tendsto_slope] at h2
  set G : ℝ → A := fun t => ∫ s in (0 : ℝ)..1, exp ((1 - s) • (X + t • Y)) * Y * exp (s • X) with hG
  have hGc : Continuous G := by
    apply intervalIntegral.continuous_parametric_intervalIntegral_of_continuous'
    have h3 : Continuous (fun p : ℝ × ℝ => exp ((1 - p.2) • (X + p.1 • Y))) :=
      exp_cont.comp (by fun_prop)
    have h4 : Continuous (fun p : ℝ × ℝ => exp (p.2 • X)) := exp_cont.comp (by fun_prop)
    show Continuous (fun p : ℝ × ℝ => exp ((1 - p.2) • (X + p.1 • Y)) * Y * exp (p.2 • X))
    fun_prop
  have h3 : Tendsto (slope (exp ∘ fun t : ℝ => X + t • Y) 0) (𝓝[≠] 0) (𝓝 (G 0)) := by
    refine ((hGc.tendsto 0).mono_left nhdsWithin_le_nhds).congr' ?_
    filter_upwards [self_mem_nhdsWithin] with t ht
    have ht' : t ≠ 0 := ht
    rw [slope_def_module]
    simp only [Function.comp, sub_zero, zero_smul, add_zero]
    rw [exp_sub_exp X (X + t • Y), hG]
    simp only [add_sub_cancel_left, mul_smul_comm, smul_mul_assoc]
    rw [intervalIntegral.integral_smul, smul_smul, inv_mul_cancel₀ ht', one_smul]
  have h4 := tendsto_nhds_unique h2 h3
  rw [h4, hG]
  simp

/-- The same over a contour length `L`. -/
theorem hasDerivAt_exp_len {Z : ℝ → A} {Z' : A} {θ : ℝ} (h : HasDerivAt Z Z' θ) (L : ℝ) :
    HasDerivAt (fun t => exp (L • Z t))
      (∫ s in (0 : ℝ)..L, exp ((L - s) • Z θ) * Z' * exp (s • Z θ)) θ := by
  refine (hasDerivAt_exp (h.const_smul L)).congr_deriv ?_
  have := intervalIntegral.smul_integral_comp_mul_left (a := 0) (b := 1)
    (fun s : ℝ => exp ((L - s) • Z θ) * Z' * exp (s • Z θ)) L
  rw [mul_zero, mul_one] at this
  rw [← this, ← intervalIntegral.integral_smul]
  congr 1
  funext s
  show exp ((1 - s) • L • Z θ) * L • Z' * exp (s • L • Z θ) = _
  rw [smul_smul, smul_smul, show (1 - s) * L = L - L * s by ring, mul_comm s L, mul_smul_comm,
    smul_mul_assoc]

end Verif.Solver.Conv

namespace Verif.Solver

open Verif.Chem Conv NormedSpace

section Mat

variable {n : Nat}

/-- Action of the symmetric part of a matrix. -/
noncomputable def matKin : Kin ℝ n (Fin n × Fin n) := fun f x i =>
  ∑ j, (f (i, j) + f (j, i)) / 2 * x j

theorem matKin_adj : SelfAdjoint (matKin (n := n)) := by
  intro f x y
  unfold dot matKin
  simp only [Finset.sum_mul, Finset.mul_sum]
  rw [Finset.sum_comm]
  refine Finset.sum_congr rfl fun i _ => Finset.sum_congr rfl fun j _ => ?_
  ring

/-- Arrays for which one step of the code is a given symmetric operator. -/
noncomputable def opArrays (E : Fld n ℝ →L[ℝ] Fld n ℝ) : Arrays ℝ n (Fin n × Fin n) where
  expW := fun _ => 1
  expW2 := fun _ => 1
  expWInv := fun _ => 1
  expKsq := fun p => -3 * E (Pi.single p.2 1) p.1
  expKsq2 := fun _ => 0

theorem op_sum (E : Fld n ℝ →L[ℝ] Fld n ℝ) (x : Fld n ℝ) (i : Fin n) :
    E x i = ∑ j, E (Pi.single j 1) i * x j := by
  have h := E.toLinearMap.pi_apply_eq_sum_univ x
  have h2 := congrFun h i
  simp only [ContinuousLinearMap.coe_coe, Finset.sum_apply, Pi.smul_apply, smul_eq_mul] at h2
  rw [h2]
  refine Finset.sum_congr rfl fun j _ => ?_
  rw [mul_comm]
  have : (fun k => if j = k then (1 : ℝ) else 0) = Pi.single j 1 := by
    funext k
    simp [Pi.single_apply, eq_comm]
  rw [this]

theorem dot_single (x : Fld n ℝ) (j : Fin n) : dot x (Pi.single j 1) = x j := by
  simp [dot, Pi.single_apply]

theorem step_opArrays {E : Fld n ℝ →L[ℝ] Fld n ℝ} (hE : ∀ x y, dot (E x) y = dot x (E y))
    (x : Fld n ℝ) : stepThread matKin (opArrays E) x = E x := by
  have hs : ∀ i j, E (Pi.single j 1) i = E (Pi.single i 1) j := by
    intro i j
    have := hE (Pi.single j 1) (Pi.single i 1)
    rwa [dot_single, dot_comm, dot_single] at this
  funext i
  unfold stepThread
  simp only [opArrays, matKin, mul_one]
  rw [op_sum E x i]
  simp only [add_zero, zero_div, zero_mul, Finset.sum_const_zero, mul_zero, zero_sub]
  rw [neg_div, Finset.sum_div, ← Finset.sum_neg_distrib]
  refine Finset.sum_congr rfl fun j _ => ?_
  rw [hs j i]
  ring

end Mat

section Poly

variable {m : Nat} {N : Fin (m + 1) → Nat} [∀ d, NeZero (N d)] {n : Nat} (en : Fin n ≃ Grid N)
  {es : List Edge} {fuel : Nat} {P : Polymer}

/-- Blocks that solve the exact problem in two steps. -/
noncomputable def exactBlk (w : Nat → Fld n ℝ) (len kuhn : Nat → ℝ) (ksq : Half N → ℝ) (k : Nat) :
    BlockData ℝ n (Fin n × Fin n) :=
  ⟨opArrays (exp ((len k / 2) • gen en (w k) (kuhn k) ksq)), 3, 0⟩

theorem exactBlk_ok (hr : readTopology es fuel = some (.ok P)) (w : Nat → Fld n ℝ)
    (len kuhn : Nat → ℝ) (ksq : Half N → ℝ) :
    PolyOk matKin false (exactBlk en w len kuhn ksq) es fuel P :=
  ⟨hr, matKin_adj, fun _ _ _ => ⟨1, le_rfl, rfl⟩, fun hb => by simp at hb⟩

theorem exactBlk_solve (w : Nat → Fld n ℝ) (len kuhn : Nat → ℝ) (ksq : Half N → ℝ)
    (vs : List Vertex) (p : Pid) (x : Fld n ℝ) :
    solveFrom matKin false (exactBlk en w len kuhn ksq) es vs p x 2 =
      exp (len p.1 • gen en (w p.1) (kuhn p.1) ksq) x := by
  set Z := gen en (w p.1) (kuhn p.1) ksq with hZ
  have hs := fun y => step_opArrays (E := exp ((len p.1 / 2) • Z))
    (exp_gen_sym en (w p.1) (kuhn p.1) ksq (len p.1 / 2)) y
  show stepThread matKin (opArrays (exp ((len p.1 / 2) • Z)))
    (stepThread matKin (opArrays (exp ((len p.1 / 2) • Z))) x) = _
  rw [hs, hs]
  let _ : NormedAlgebra ℚ (Fld n ℝ →L[ℝ] Fld n ℝ) := NormedAlgebra.restrictScalars ℚ ℝ _
  have h3 : exp (len p.1 • Z) = exp ((len p.1 / 2) • Z) * exp ((len p.1 / 2) • Z) := by
    rw [← exp_add_of_commute (Commute.refl _), ← add_smul]
    congr 2; ring
  rw [h3]
  rfl

theorem exactBlk_ns (w : Nat → Fld n ℝ) (len kuhn : Nat → ℝ) (ksq : Half N → ℝ) (k : Nat) :
    (exactBlk en w len kuhn ksq k).ns = 3 := by
  unfold exactBlk; rfl

/-- The exact problem is solved by the code run with exact blocks. -/
theorem exact_heads (hr : readTopology es fuel = some (.ok P)) {w : Nat → Fld n ℝ}
    {len kuhn : Nat → ℝ} {ksq : Half N → ℝ} {U : Pid → ℝ → Fld n ℝ}
    (hU : Exact en es P.vertices w len kuhn ksq U) {st : Pid → Option (Nat → Fld n ℝ)}
    (hd : Done matKin false (exactBlk en w len kuhn ksq) es P.vertices P.plan st)
    {p : Pid} (hp : p.1 < es.length) : headOf st p = U p 0 ∧
      tailOf (exactBlk en w len kuhn ksq) st p = U p (len p.1) := by
  obtain ⟨_, hv, hsch⟩ := plan_facts (exactBlk_ok en hr w len kuhn ksq)
  set U' : Pid → ℝ → Fld n ℝ := fun p s => exp (s • gen en (w p.1) (kuhn p.1) ksq) (headOf st p)
    with hU'
  have ht : ∀ q : Pid, q.1 < es.length →
      tailOf (exactBlk en w len kuhn ksq) st q = U' q (len q.1) := by
    intro q hq
    rw [tailOf_eq hd ((hsch.complete q).2 hq)]
    exact exactBlk_solve en w len kuhn ksq P.vertices q (headOf st q)
  have hE : Exact en es P.vertices w len kuhn ksq U' := by
    refine ⟨fun q _ => exp_mde en _ _ _ _, fun q hq i => ?_⟩
    have h0 : U' q 0 = headOf st q := by simp [hU']
    rw [h0, headOf_eq hv hd hq ((hsch.complete q).2 hq) i]
    congr 1
    apply List.map_congr_left
    intro s hs
    have hs1 : s.1 < es.length := by
      obtain ⟨a, b, hab⟩ := List.append_of_mem ((hsch.complete q).2 hq)
      have := hsch.ordered a q b hab s ((mem_sources hv hq).1 hs)
      exact (hsch.complete s).1 (by rw [hab]; simp [this])
    rw [ht s hs1]
  have h0 : headOf st p = U' p 0 := by simp [hU']
  have hu := C88_exact_polymer_unique en hr hE hU p hp
  rw [h0, ht p hp, hu]
  exact ⟨rfl, rfl⟩

/-- Derivative of the partition function of the exact problem with respect to a parameter of the
fields and squared wavenumbers. -/
theorem exactQ_deriv (hr : readTopology es fuel = some (.ok P)) (hes : es ≠ [])
    {w : ℝ → Nat → Fld n ℝ} {len kuhn : Nat → ℝ} {ksq : ℝ → Half N → ℝ}
    {U : ℝ → Pid → ℝ → Fld n ℝ} (hU : ∀ t, Exact en es P.vertices (w t) len kuhn (ksq t) (U t))
    {θ : ℝ} {Z' : Nat → Fld n ℝ →L[ℝ] Fld n ℝ}
    (hZ : ∀ k, HasDerivAt (fun t => gen en (w t k) (kuhn k) (ksq t)) (Z' k) θ) (phiTot : ℝ) :
    HasDerivAt (fun t => exactQ len (U t) phiTot)
      ((∑ k : Fin es.length, ∫ s in (0 : ℝ)..len k,
        dot (Z' k (U θ (k, false) s)) (U θ (k, true) (len k - s))) / n / phiTot) θ := by
  have hP : ∀ t, PolyOk matKin false (exactBlk en (w t) len kuhn (ksq t)) es fuel P :=
    fun t => exactBlk_ok en hr (w t) len kuhn (ksq t)
  have hlen : 0 < es.length := List.length_pos_iff.2 hes
  have hex : ∀ t, ∃ st, solvePlan matKin false (exactBlk en (w t) len kuhn (ksq t)) es P.vertices
      P.plan (fun _ => none) = .ok st := fun t => by
    obtain ⟨st, hst, _⟩ := C54_Q_block_independent (hP t)
    exact ⟨st, hst⟩
  choose st hst using hex
  have hdone := fun t => done_of_solve (hP t) (hst t)
  have hh := fun t (p : Pid) (hp : p.1 < es.length) => exact_heads en hr (hU t) (hdone t) hp
  set D : Pid → (Fld n ℝ →L[ℝ] Fld n ℝ) := fun p => ∫ s in (0 : ℝ)..len p.1,
    exp ((len p.1 - s) • gen en (w θ p.1) (kuhn p.1) (ksq θ)) * Z' p.1 *
      exp (s • gen en (w θ p.1) (kuhn p.1) (ksq θ)) with hD
  have key := sum_deriv hP hes hst (θ := θ)
    (fun t k => (exactBlk_ns en (w t) len kuhn (ksq t) k).trans
      (exactBlk_ns en (w θ) len kuhn (ksq θ) k).symm) (fun p => D p) (by
    intro p hp h h' hhd i
    simp only [exactBlk_ns, Nat.reduceSub]
    have h1 := hasDerivAt_exp_len (hZ p.1) (len p.1)
    have h2 := h1.clm_apply (hasDerivAt_pi.2 hhd)
    have h3 := hasDerivAt_pi.1 h2 i
    have e : (fun t => solveFrom matKin false (exactBlk en (w t) len kuhn (ksq t)) es P.vertices p
        (h t) 2 i) =
        fun t => exp (len p.1 • gen en (w t p.1) (kuhn p.1) (ksq t)) (h t) i := by
      funext t
      exact congrFun (exactBlk_solve en (w t) len kuhn (ksq t) P.vertices p (h t)) i
    rw [e]
    refine h3.congr_deriv ?_
    rw [Pi.add_apply]
    congr 1
    exact (congrFun (exactBlk_solve en (w θ) len kuhn (ksq θ) P.vertices p h') i).symm)
  have e : (fun t => exactQ len (U t) phiTot) = fun t =>
      dot (headOf (st t) (0, false)) (tailOf (exactBlk en (w t) len kuhn (ksq t)) (st t) (0, true)) /
        n / phiTot := by
    funext t
    rw [(hh t (0, false) hlen).1, (hh t (0, true) hlen).2]
    rfl
  rw [e]
  refine ((key.div_const _).div_const _).congr_deriv ?_
  congr 2
  refine Finset.sum_congr rfl fun k _ => ?_
  rw [(hh θ ((k : Nat), false) k.2).1, (hh θ ((k : Nat), true) k.2).1]
  set Z := gen en (w θ k) (kuhn k) (ksq θ) with hZd
  set x := U θ ((k : Nat), false) 0
  set y := U θ ((k : Nat), true) 0
  -- the functional `T ↦ dot (T x) y`
  set φ : (Fld n ℝ →L[ℝ] Fld n ℝ) →L[ℝ] ℝ :=
    (∑ i, y i • ContinuousLinearMap.proj (R := ℝ) (φ := fun _ : Fin n => ℝ) i).comp
      (ContinuousLinearMap.apply ℝ (Fld n ℝ) x) with hφ
  have hφa : ∀ T, φ T = dot (T x) y := by
    intro T
    simp only [hφ, ContinuousLinearMap.comp_apply, ContinuousLinearMap.apply_apply, dot,
      sum_apply, smul_apply, ContinuousLinearMap.proj_apply, smul_eq_mul]
    exact Finset.sum_congr rfl fun i _ => mul_comm _ _
  rw [← hφa]
  have hc : Continuous (fun s : ℝ => exp ((len k - s) • Z) * Z' k * exp (s • Z)) := by
    have h1 : Continuous (fun s : ℝ => exp ((len k - s) • Z)) := exp_cont.comp (by fun_prop)
    have h2 : Continuous (fun s : ℝ => exp (s • Z)) := exp_cont.comp (by fun_prop)
    fun_prop
  have hi := φ.intervalIntegral_comp_comm (hc.intervalIntegrable (μ := MeasureTheory.volume) 0 (len k))
  show φ (∫ s in (0 : ℝ)..len k, exp ((len k - s) • Z) * Z' k * exp (s • Z)) = _
  rw [← hi]
  congr 1
  funext s
  rw [hφa, mde_eq_exp en ((hU θ).mde ((k : Nat), false) k.2) s,
    mde_eq_exp en ((hU θ).mde ((k : Nat), true) k.2) (len k - s)]
  exact exp_gen_sym en (w θ k) (kuhn k) (ksq θ) (len k - s) _ _

end Poly

end Verif.Solver
