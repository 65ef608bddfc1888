import Verif.Solver.ConvLemmas
import Verif.Solver.SimpsonLemmas
import Verif.Solver.ShiftProps
import Mathlib.Analysis.Calculus.MeanValue
import Mathlib.Analysis.Calculus.Deriv.Prod
import Mathlib.Topology.Algebra.Module.FiniteDimension
import Mathlib.Analysis.Normed.Module.FiniteDimension

/-!
# C88: convergence of the thread model

The exact problem on a given mesh: propagators that solve the modified diffusion equation
`dq/ds = -w q + (b²/6) ∇² q` with the spectral Laplacian of the mesh, with heads that are products of
the tails of their sources.
-/

set_option autoImplicit false
set_option linter.unusedSectionVars false

namespace Verif.Solver

open Verif.Chem Conv NormedSpace

variable {m : Nat} {N : Fin (m + 1) → Nat} [∀ d, NeZero (N d)] {n : Nat} (en : Fin n ≃ Grid N)

/-- Solutions of the modified diffusion equation on the mesh, in continuous contour variable. -/
def IsMDE (w : Fld n ℝ) (kuhn : ℝ) (ksq : Half N → ℝ) (u : ℝ → Fld n ℝ) : Prop :=
  ∀ s i, HasDerivAt (fun s => u s i) (-(w i) * u s i - kuhn ^ 2 / 6 * dftKin en ksq (u s) i) s

/-! ## Operators -/

/-- Multiplication by `-w`. -/
noncomputable def wOp (w : Fld n ℝ) : Fld n ℝ →L[ℝ] Fld n ℝ :=
  LinearMap.toContinuousLinearMap
    { toFun := fun q i => -(w i) * q i
      map_add' := fun x y => by funext i; simp [mul_add]
      map_smul' := fun c x => by funext i; simp; ring }

theorem wOp_apply (w q : Fld n ℝ) (i : Fin n) : wOp w q i = -(w i) * q i := rfl

/-- `c` times the action of an array in Fourier space. -/
noncomputable def kOp (c : ℝ) (f : Half N → ℝ) : Fld n ℝ →L[ℝ] Fld n ℝ :=
  LinearMap.toContinuousLinearMap
    { toFun := fun q i => c * dftKin en f q i
      map_add' := fun x y => by
        funext i
        simp only [dftKin_eq, Pi.add_apply, add_mul, Finset.sum_add_distrib, mul_add]
      map_smul' := fun a x => by
        funext i
        simp only [dftKin_eq, Pi.smul_apply, smul_eq_mul, RingHom.id_apply, mul_assoc,
          ← Finset.mul_sum]
        ring }

theorem kOp_apply (c : ℝ) (f : Half N → ℝ) (q : Fld n ℝ) (i : Fin n) :
    kOp en c f q i = c * dftKin en f q i := rfl

/-- A Fourier coefficient as a linear map. -/
noncomputable def r2cL (k : Half N) : Fld n ℝ →L[ℝ] ℂ :=
  LinearMap.toContinuousLinearMap
    { toFun := fun q => r2c en q k
      map_add' := fun x y => by
        simp only [r2c, Pi.add_apply, Complex.ofReal_add, add_mul, Finset.sum_add_distrib]
      map_smul' := fun a x => by
        have := r2c_smul en a x k
        have e : a • x = fun i => x i * a := by funext i; simp [mul_comm]
        rw [e, this]
        simp [mul_comm] }

theorem r2cL_apply (k : Half N) (q : Fld n ℝ) : r2cL en k q = r2c en q k := rfl

theorem exp_wOp (t : ℝ) (w q : Fld n ℝ) (i : Fin n) :
    exp (t • wOp w) q i = Real.exp (-(t * w i)) * q i := by
  have := map_exp_of_eigen (ContinuousLinearMap.proj (R := ℝ) (φ := fun _ : Fin n => ℝ) i)
    (t • wOp w) (-(t * w i)) (fun q => by
      simp only [ContinuousLinearMap.proj_apply, smul_apply, Pi.smul_apply,
        wOp_apply, smul_eq_mul]
      ring) q
  simpa using this

theorem exp_kOp (t c : ℝ) {f : Half N → ℝ} (hf : Even f) (q : Fld n ℝ) :
    exp (t • kOp en c f) q = dftKin en (fun k => Real.exp (t * c * f k)) q := by
  apply r2c_inj en
  funext k
  have hE : Even (fun k => Real.exp (t * c * f k)) := fun k h h' => by
    show Real.exp _ = Real.exp _
    rw [hf k h h']
  have := map_exp_of_eigen (r2cL en k) (t • kOp en c f) (t * c * f k) (fun q => by
    rw [smul_apply, map_smul, r2cL_apply, r2cL_apply]
    have e : kOp en c f q = fun i => dftKin en f q i * c := by
      funext i; rw [kOp_apply, mul_comm]
    rw [e, r2c_smul, r2c_dftKin en hf]
    simp only [Complex.real_smul]
    push_cast
    ring) q
  rw [r2cL_apply, r2cL_apply] at this
  rw [this, r2c_dftKin en hE, Complex.real_smul, mul_comm]

/-- The step of the code is the split step of the two operators. -/
theorem stepThread_rich (w : Fld n ℝ) (ds kuhn : ℝ) {ksq : Half N → ℝ} (hk : Even ksq)
    (q : Fld n ℝ) :
    stepThread (dftKin en) (threadArrays w ds kuhn ksq) q =
      richStep (wOp w) (kOp en (-(kuhn ^ 2 / 6)) ksq) ds q := by
  funext i
  simp only [richStep, smul_smul, smul_apply, sub_apply,
    Pi.smul_apply, Pi.sub_apply, mul_apply_eq_comp, smul_eq_mul, exp_wOp,
    exp_kOp en _ _ hk]
  unfold stepThread
  simp only [threadArrays]
  have e1 : (fun k => Real.exp (1 / 2 * (ksq k * (-1 * kuhn * kuhn / 6 * ds)))) =
      fun k => Real.exp (ds * (1 / 2) * -(kuhn ^ 2 / 6) * ksq k) := by
    funext k; congr 1; ring
  have e2 : (fun k => Real.exp (ksq k * (-1 * kuhn * kuhn / 6 * ds))) =
      fun k => Real.exp (ds * -(kuhn ^ 2 / 6) * ksq k) := by
    funext k; congr 1; ring
  have e3 : ∀ i, Real.exp (1 / 2 * (-(1 / 2) * ds * w i)) = Real.exp (-(ds * (1 / 4) * w i)) := by
    intro i; congr 1; ring
  have e4 : ∀ i, Real.exp (-(1 / 2) * ds * w i) = Real.exp (-(ds * (1 / 2) * w i)) := by
    intro i; congr 1; ring
  have c1 : (fun i => q i * Real.exp (-(ds * (1 / 4) * w i))) = exp ((ds * (1 / 4)) • wOp w) q := by
    funext i; rw [exp_wOp, mul_comm]
  have c2 : (fun i => q i * Real.exp (-(ds * (1 / 2) * w i))) = exp ((ds * (1 / 2)) • wOp w) q := by
    funext i; rw [exp_wOp, mul_comm]
  have c3 : ∀ x : Fld n ℝ, (fun i => x i * Real.exp (-(ds * (1 / 2) * w i))) =
      exp ((ds * (1 / 2)) • wOp w) x := by
    intro x; funext i; rw [exp_wOp, mul_comm]
  simp only [e1, e2, e3, e4, c1, c3]
  ring

/-- The generator. -/
noncomputable def gen (w : Fld n ℝ) (kuhn : ℝ) (ksq : Half N → ℝ) : Fld n ℝ →L[ℝ] Fld n ℝ :=
  wOp w + kOp en (-(kuhn ^ 2 / 6)) ksq

theorem gen_apply (w : Fld n ℝ) (kuhn : ℝ) (ksq : Half N → ℝ) (q : Fld n ℝ) (i : Fin n) :
    gen en w kuhn ksq q i = -(w i) * q i - kuhn ^ 2 / 6 * dftKin en ksq q i := by
  simp only [gen, add_apply, Pi.add_apply, wOp_apply, kOp_apply]
  ring

theorem mde_iff (w : Fld n ℝ) (kuhn : ℝ) (ksq : Half N → ℝ) (u : ℝ → Fld n ℝ) :
    IsMDE en w kuhn ksq u ↔ ∀ s, HasDerivAt u (gen en w kuhn ksq (u s)) s := by
  unfold IsMDE
  refine forall_congr' fun s => ?_
  rw [hasDerivAt_pi]
  refine forall_congr' fun i => ?_
  rw [gen_apply]

theorem exp_mde (w : Fld n ℝ) (kuhn : ℝ) (ksq : Half N → ℝ) (h : Fld n ℝ) :
    IsMDE en w kuhn ksq (fun s => exp (s • gen en w kuhn ksq) h) := by
  rw [mde_iff]
  intro s
  have h1 := hasDerivAt_exp_smul_const' (𝕂 := ℝ) (gen en w kuhn ksq) s
  have h2 := (ContinuousLinearMap.apply ℝ (Fld n ℝ) h).hasFDerivAt.comp_hasDerivAt s h1
  exact h2

theorem mde_eq_exp {w : Fld n ℝ} {kuhn : ℝ} {ksq : Half N → ℝ} {u : ℝ → Fld n ℝ}
    (hu : IsMDE en w kuhn ksq u) (s : ℝ) : u s = exp (s • gen en w kuhn ksq) (u 0) := by
  rw [mde_iff] at hu
  set Z := gen en w kuhn ksq with hZ
  let _ : NormedAlgebra ℚ (Fld n ℝ →L[ℝ] Fld n ℝ) := NormedAlgebra.restrictScalars ℚ ℝ _
  have hinv : ∀ t : ℝ, exp (t • Z) * exp ((-t) • Z) = 1 := by
    intro t
    rw [← exp_add_of_commute ((Commute.refl Z).smul_left t |>.smul_right (-t)), ← add_smul]
    simp
  have hd : ∀ t, HasDerivAt (fun t => exp ((-t) • Z) (u t)) 0 t := by
    intro t
    have h1 : HasDerivAt (fun t : ℝ => exp ((-t) • Z)) (-(exp ((-t) • Z) * Z)) t := by
      have := (hasDerivAt_exp_smul_const (𝕂 := ℝ) Z (-t)).scomp t (hasDerivAt_neg t)
      exact this.congr_deriv (neg_one_smul ℝ _)
    have h2 := h1.clm_apply (hu t)
    refine h2.congr_deriv ?_
    simp
  have hc := is_const_of_deriv_eq_zero (f := fun t => exp ((-t) • Z) (u t))
    (fun t => (hd t).differentiableAt) (fun t => (hd t).deriv) s 0
  simp only [neg_zero, zero_smul, exp_zero, one_apply_eq_self] at hc
  rw [← hc, ← mul_apply_eq_comp, hinv s]
  rfl

/-- **C88**: for every head there is exactly one solution of the equation on the mesh. -/
theorem C88_exact_unique (w : Fld n ℝ) (kuhn : ℝ) (ksq : Half N → ℝ) (h : Fld n ℝ) :
    ∃! u : ℝ → Fld n ℝ, IsMDE en w kuhn ksq u ∧ u 0 = h := by
  refine ⟨fun s => exp (s • gen en w kuhn ksq) h, ⟨exp_mde en w kuhn ksq h, by simp⟩, ?_⟩
  rintro u ⟨hu, rfl⟩
  funext s
  exact mde_eq_exp en hu s

theorem slices_pow (w : Fld n ℝ) (ds kuhn : ℝ) {ksq : Half N → ℝ} (hk : Even ksq) (h : Fld n ℝ) :
    ∀ j, slicesThread (dftKin en) (threadArrays w ds kuhn ksq) h j =
      (richStep (wOp w) (kOp en (-(kuhn ^ 2 / 6)) ksq) ds ^ j) h
  | 0 => by simp [slicesThread]
  | j + 1 => by
    show stepThread _ _ _ = _
    rw [slices_pow w ds kuhn hk h j, stepThread_rich en w ds kuhn hk, pow_succ' _ j]
    rfl

/-- Error of the slices for an approximate head. -/
theorem slices_error (w : Fld n ℝ) (kuhn L : ℝ) (hL : 0 ≤ L) {ksq : Half N → ℝ} (hk : Even ksq)
    {u : ℝ → Fld n ℝ} (hu : IsMDE en w kuhn ksq u) :
    ∃ C, 0 ≤ C ∧ ∀ (M : Nat), 1 ≤ M → ∀ (h : Fld n ℝ) (j : Nat), j ≤ M →
      ‖slicesThread (dftKin en) (threadArrays w (L / M) kuhn ksq) h j - u (j * (L / M))‖ ≤
        C * (‖h - u 0‖ + 1 / (M : ℝ) ^ 4) := by
  have h1 : ‖(1 : Fld n ℝ →L[ℝ] Fld n ℝ)‖ ≤ 1 := ContinuousLinearMap.norm_id_le
  obtain ⟨C, hC, hg⟩ := richStep_global (wOp w) (kOp en (-(kuhn ^ 2 / 6)) ksq) h1 L hL
  set Z := wOp w + kOp en (-(kuhn ^ 2 / 6)) ksq with hZ
  refine ⟨max (Real.exp (L * ‖Z‖) + C) (C * ‖u 0‖), le_max_of_le_left (by positivity),
    fun M hM h j hj => ?_⟩
  have hM0 : (0 : ℝ) < M := by exact_mod_cast hM
  have hb := hg M hM j hj
  set S := richStep (wOp w) (kOp en (-(kuhn ^ 2 / 6)) ksq) (L / M) with hS
  have hjL : (j : ℝ) * (L / M) ≤ L := by
    have : (j : ℝ) ≤ M := by exact_mod_cast hj
    calc (j : ℝ) * (L / M) ≤ M * (L / M) := mul_le_mul_of_nonneg_right this (by positivity)
      _ = L := by field_simp
  have hj0 : 0 ≤ (j : ℝ) * (L / M) := by positivity
  have hE : ‖exp (((j : ℝ) * (L / M)) • Z)‖ ≤ Real.exp (L * ‖Z‖) := by
    refine (norm_exp_le _ h1).trans ?_
    rw [norm_smul, Real.norm_eq_abs, abs_of_nonneg hj0]
    exact Real.exp_le_exp.2 (mul_le_mul_of_nonneg_right hjL (norm_nonneg _))
  have hM4 : (1 : ℝ) / M ^ 4 ≤ 1 := by
    rw [div_le_one (by positivity)]
    exact one_le_pow₀ (by exact_mod_cast hM)
  have hCM : C / (M : ℝ) ^ 4 ≤ C := by
    have := mul_le_mul_of_nonneg_left hM4 hC
    rwa [mul_one_div, mul_one] at this
  have hSj : ‖S ^ j‖ ≤ Real.exp (L * ‖Z‖) + C := by
    have := norm_add_le (S ^ j - exp (((j : ℝ) * (L / M)) • Z)) (exp (((j : ℝ) * (L / M)) • Z))
    rw [sub_add_cancel] at this
    linarith
  rw [slices_pow en w _ kuhn hk, mde_eq_exp en hu (j * (L / M))]
  have e : (S ^ j) h - exp (((j : ℝ) * (L / M)) • gen en w kuhn ksq) (u 0) =
      (S ^ j) (h - u 0) + (S ^ j - exp (((j : ℝ) * (L / M)) • Z)) (u 0) := by
    rw [map_sub, sub_apply]
    show _ - exp (((j : ℝ) * (L / M)) • Z) (u 0) = _
    abel
  rw [e]
  have t1 : ‖(S ^ j) (h - u 0)‖ ≤ (Real.exp (L * ‖Z‖) + C) * ‖h - u 0‖ :=
    (ContinuousLinearMap.le_opNorm _ _).trans (mul_le_mul_of_nonneg_right hSj (norm_nonneg _))
  have t2 : ‖(S ^ j - exp (((j : ℝ) * (L / M)) • Z)) (u 0)‖ ≤ C * ‖u 0‖ * (1 / (M : ℝ) ^ 4) := by
    refine (ContinuousLinearMap.le_opNorm _ _).trans ?_
    calc _ ≤ C / (M : ℝ) ^ 4 * ‖u 0‖ := mul_le_mul_of_nonneg_right hb (norm_nonneg _)
      _ = _ := by ring
  refine (norm_add_le _ _).trans ?_
  rw [mul_add]
  exact add_le_add
    (t1.trans (mul_le_mul_of_nonneg_right (le_max_left _ _) (norm_nonneg _)))
    (t2.trans (mul_le_mul_of_nonneg_right (le_max_right _ _) (by positivity)))

/-- **C88**: fourth order convergence of a propagator. -/
theorem C88_propagator (w : Fld n ℝ) (kuhn L : ℝ) (hL : 0 ≤ L) {ksq : Half N → ℝ} (hk : Even ksq)
    {u : ℝ → Fld n ℝ} (hu : IsMDE en w kuhn ksq u) :
    ∃ C, ∀ (M : Nat), 1 ≤ M → ∀ (j : Nat), j ≤ M → ∀ i,
      |slicesThread (dftKin en) (threadArrays w (L / M) kuhn ksq) (u 0) j i - u (j * (L / M)) i| ≤
        C / (M : ℝ) ^ 4 := by
  obtain ⟨C, _, h⟩ := slices_error en w kuhn L hL hk hu
  refine ⟨C, fun M hM j hj i => ?_⟩
  have := h M hM (u 0) j hj
  rw [sub_self, norm_zero, zero_add, mul_one_div] at this
  exact (norm_le_pi_norm _ i).trans this

/-! ## Polymers -/

/-- The exact problem of a polymer in continuous contour variable: `U p s` is propagator `p` at
contour position `s`, `len k` the length of block `k`. -/
structure Exact (es : List Edge) (vs : List Vertex) (w : Nat → Fld n ℝ) (len kuhn : Nat → ℝ)
    (ksq : Half N → ℝ) (U : Pid → ℝ → Fld n ℝ) : Prop where
  mde : ∀ p : Pid, p.1 < es.length → IsMDE en (w p.1) (kuhn p.1) ksq (U p)
  head : ∀ p : Pid, p.1 < es.length → ∀ i,
    U p 0 i = ((sources es vs p).map (fun s => U s (len s.1) i)).prod

/-- Blocks with `2 * mm k` contour steps each. -/
noncomputable def fine (w : Nat → Fld n ℝ) (len kuhn : Nat → ℝ) (ksq : Half N → ℝ)
    (mm : Nat → Nat) (k : Nat) : BlockData ℝ n (Half N) :=
  realBlock false (w k) (2 * mm k + 1) (len k / ((2 * mm k : Nat) : ℝ)) (kuhn k) ksq

/-- Size of the expected error: sum over blocks of the inverse fourth power of the number of
steps. -/
noncomputable def errSize (es : List Edge) (mm : Nat → Nat) : ℝ :=
  ∑ k ∈ Finset.range es.length, 1 / (((2 * mm k : Nat) : ℝ)) ^ 4

theorem errSize_nonneg (es : List Edge) (mm : Nat → Nat) : 0 ≤ errSize es mm :=
  Finset.sum_nonneg fun _ _ => by positivity

theorem errSize_le (es : List Edge) (mm : Nat → Nat) (h : ∀ k, 1 ≤ mm k) :
    errSize es mm ≤ es.length := by
  unfold errSize
  refine (Finset.sum_le_card_nsmul _ _ 1 fun k _ => ?_).trans (by simp)
  have h1 : (1 : ℝ) ≤ ((2 * mm k : Nat) : ℝ) := by
    have := h k
    exact_mod_cast (by omega : 1 ≤ 2 * mm k)
  rw [div_le_one (by positivity)]
  exact one_le_pow₀ h1

theorem le_errSize (es : List Edge) (mm : Nat → Nat) {k : Nat} (hk : k < es.length) :
    1 / (((2 * mm k : Nat) : ℝ)) ^ 4 ≤ errSize es mm :=
  Finset.single_le_sum (f := fun k => 1 / (((2 * mm k : Nat) : ℝ)) ^ 4)
    (fun _ _ => by positivity) (Finset.mem_range.2 hk)

theorem list_prod_error (b : Pid → ℝ) (D0 : ℝ) (hD0 : 0 ≤ D0) : ∀ l : List Pid, ∃ C, 0 ≤ C ∧
    ∀ (a : Pid → ℝ) (D : ℝ), 0 ≤ D → D ≤ D0 → (∀ s ∈ l, |a s - b s| ≤ D) →
      |(l.map a).prod - (l.map b).prod| ≤ C * D
  | [] => ⟨0, le_rfl, fun a D _ _ _ => by simp⟩
  | s :: l => by
    obtain ⟨C, hC, ih⟩ := list_prod_error b D0 hD0 l
    refine ⟨|(l.map b).prod| + C * D0 + |b s| * C, by positivity, fun a D hD hD' h => ?_⟩
    have h1 := ih a D hD hD' (fun s hs => h s (by simp [hs]))
    have h2 := h s (by simp)
    have h3 : |(l.map a).prod| ≤ |(l.map b).prod| + C * D0 := by
      have := abs_add_le ((l.map a).prod - (l.map b).prod) (l.map b).prod
      rw [sub_add_cancel] at this
      have h4 : C * D ≤ C * D0 := mul_le_mul_of_nonneg_left hD' hC
      linarith
    simp only [List.map_cons, List.prod_cons]
    have e : a s * (l.map a).prod - b s * (l.map b).prod =
        (a s - b s) * (l.map a).prod + b s * ((l.map a).prod - (l.map b).prod) := by ring
    rw [e]
    refine (abs_add_le _ _).trans ?_
    rw [abs_mul, abs_mul]
    have t1 : |a s - b s| * |(l.map a).prod| ≤ D * (|(l.map b).prod| + C * D0) :=
      mul_le_mul h2 h3 (abs_nonneg _) hD
    have t2 : |b s| * |(l.map a).prod - (l.map b).prod| ≤ |b s| * (C * D) :=
      mul_le_mul_of_nonneg_left h1 (abs_nonneg _)
    linarith

variable {es : List Edge} {fuel : Nat} {P : Polymer} {w : Nat → Fld n ℝ} {len kuhn : Nat → ℝ}
  {ksq : Half N → ℝ} {U : Pid → ℝ → Fld n ℝ}

theorem fine_ok (hr : readTopology es fuel = some (.ok P)) (w : Nat → Fld n ℝ)
    (len kuhn : Nat → ℝ) (ksq : Half N → ℝ) {mm : Nat → Nat} (h : ∀ k, 1 ≤ mm k) :
    PolyOk (dftKin en) false (fine w len kuhn ksq mm) es fuel P :=
  ⟨hr, dft_selfAdjoint en, fun _ k _ => ⟨mm k, h k, rfl⟩, fun hb => by simp at hb⟩

/-- Error of all propagators of a part of the plan. -/
theorem plan_error (hr : readTopology es fuel = some (.ok P)) (hk : Even ksq)
    (hlen : ∀ k, 0 ≤ len k) (hU : Exact en es P.vertices w len kuhn ksq U) :
    ∀ (l l2 : List Pid), P.plan = l ++ l2 → ∃ C, 0 ≤ C ∧ ∀ mm : Nat → Nat, (∀ k, 1 ≤ mm k) →
      ∀ st, Done (dftKin en) false (fine w len kuhn ksq mm) es P.vertices P.plan st →
      ∀ p ∈ l, ∀ j, j ≤ 2 * mm p.1 →
        ‖solveFrom (dftKin en) false (fine w len kuhn ksq mm) es P.vertices p (headOf st p) j -
          U p (j * (len p.1 / ((2 * mm p.1 : Nat) : ℝ)))‖ ≤ C * errSize es mm := by
  obtain ⟨_, hv, hsch⟩ := plan_facts (fine_ok en hr w len kuhn ksq (mm := fun _ => 1) (by simp))
  intro l
  induction l using List.reverseRecOn with
  | nil => intro _ _; exact ⟨0, le_rfl, fun _ _ _ _ p hp => by simp at hp⟩
  | append_singleton l q ih =>
    intro l2 he
    obtain ⟨C, hC, ihC⟩ := ih (q :: l2) (by rw [he]; simp)
    have hqm : q ∈ P.plan := by rw [he]; simp
    have hq : q.1 < es.length := (hsch.complete q).1 hqm
    have hsl : ∀ s ∈ sources es P.vertices q, s ∈ l := fun s hs =>
      hsch.ordered l q l2 (by rw [he]; simp) s ((mem_sources hv hq).1 hs)
    obtain ⟨Cs, hCs, hse⟩ := slices_error en (w q.1) (kuhn q.1) (len q.1) (hlen q.1) hk (hU.mde q hq)
    have hpr : ∀ i : Fin n, ∃ Cp, 0 ≤ Cp ∧ ∀ (a : Pid → ℝ) (D : ℝ), 0 ≤ D → D ≤ C * es.length →
        (∀ s ∈ sources es P.vertices q, |a s - U s (len s.1) i| ≤ D) →
        |((sources es P.vertices q).map a).prod -
          ((sources es P.vertices q).map (fun s => U s (len s.1) i)).prod| ≤ Cp * D :=
      fun i => list_prod_error (fun s => U s (len s.1) i) (C * es.length) (by positivity) _
    choose Cp hCp hpe using hpr
    have hCp' : 0 ≤ ∑ i, Cp i := Finset.sum_nonneg fun i _ => hCp i
    refine ⟨max C (Cs * ((∑ i, Cp i) * C + 1)), le_max_of_le_left hC, fun mm hmm st hd p hp j hj => ?_⟩
    have he0 := errSize_nonneg es mm
    rw [List.mem_append, List.mem_singleton] at hp
    rcases hp with hp | rfl
    · exact (ihC mm hmm st hd p hp j hj).trans (mul_le_mul_of_nonneg_right (le_max_left _ _) he0)
    · have hhead : ‖headOf st p - U p 0‖ ≤ (∑ i, Cp i) * C * errSize es mm := by
        rw [pi_norm_le_iff_of_nonneg (by positivity)]
        intro i
        rw [Pi.sub_apply, headOf_eq hv hd hq hqm i, hU.head p hq i, Real.norm_eq_abs]
        have hle : C * errSize es mm ≤ C * es.length :=
          mul_le_mul_of_nonneg_left (errSize_le es mm hmm) hC
        refine (hpe i (fun s => tailOf (fine w len kuhn ksq mm) st s i) (C * errSize es mm)
          (by positivity) hle (fun s hs => ?_)).trans ?_
        · have hsm : s ∈ P.plan := by rw [he]; simp [hsl s hs]
          have := ihC mm hmm st hd s (hsl s hs) (2 * mm s.1) le_rfl
          have e : (((2 * mm s.1 : Nat) : ℝ)) * (len s.1 / ((2 * mm s.1 : Nat) : ℝ)) = len s.1 := by
            have : (((2 * mm s.1 : Nat) : ℝ)) ≠ 0 := by
              have := hmm s.1
              exact_mod_cast (by omega : 2 * mm s.1 ≠ 0)
            field_simp
          rw [e] at this
          rw [tailOf_eq hd hsm]
          exact (norm_le_pi_norm _ i).trans this
        · rw [← mul_assoc]
          exact mul_le_mul_of_nonneg_right (mul_le_mul_of_nonneg_right
            (Finset.single_le_sum (fun i _ => hCp i) (Finset.mem_univ i)) hC) he0
      have h2 := hse (2 * mm p.1) (by have := hmm p.1; omega) (headOf st p) j hj
      refine h2.trans ?_
      have h3 := le_errSize es mm hq
      have h4 : Cs * (‖headOf st p - U p 0‖ + 1 / (((2 * mm p.1 : Nat) : ℝ)) ^ 4) ≤
          Cs * ((∑ i, Cp i) * C + 1) * errSize es mm := by
        rw [mul_assoc]
        apply mul_le_mul_of_nonneg_left _ hCs
        linarith
      exact h4.trans (mul_le_mul_of_nonneg_right (le_max_right _ _) he0)

/-- **C88**: for a polymer of any topology, the solution exists for every number of contour steps,
and all slices of all propagators differ from the exact solution by at most a constant times the
sum over blocks of the inverse fourth power of the number of steps. -/
theorem C88_propagators (hr : readTopology es fuel = some (.ok P)) (hes : es ≠ []) (hk : Even ksq)
    (hlen : ∀ k, 0 ≤ len k) (hU : Exact en es P.vertices w len kuhn ksq U) (phiTot : ℝ) :
    ∃ C, 0 ≤ C ∧ ∀ mm : Nat → Nat, (∀ k, 1 ≤ mm k) → ∃ st Q,
      polymerSolve (dftKin en) false (fine w len kuhn ksq mm) es P.vertices P.plan phiTot =
        .ok (st, Q) ∧
      ∀ p : Pid, p.1 < es.length → ∃ q, st p = some q ∧ ∀ j, j ≤ 2 * mm p.1 → ∀ i,
        |q j i - U p (j * (len p.1 / ((2 * mm p.1 : Nat) : ℝ))) i| ≤ C * errSize es mm := by
  obtain ⟨C, hC, h⟩ := plan_error en hr hk hlen hU P.plan [] (by simp)
  refine ⟨C, hC, fun mm hmm => ?_⟩
  have hP := fine_ok en hr w len kuhn ksq hmm
  obtain ⟨_, hv, hsch⟩ := plan_facts hP
  obtain ⟨st, Q, hs⟩ := C53_solve_succeeds hP hes phiTot
  obtain ⟨hd, _⟩ := polymerSolve_inv hP hes hs
  refine ⟨st, Q, hs, fun p hp => ?_⟩
  have hm := (hsch.complete p).2 hp
  exact ⟨_, st_eq hd hm, fun j hj i => (norm_le_pi_norm _ i).trans (h mm hmm st hd p hm j hj)⟩

/-- The partition function of the exact problem. -/
noncomputable def exactQ (len : Nat → ℝ) (U : Pid → ℝ → Fld n ℝ) (phiTot : ℝ) : ℝ :=
  (∑ i, U (0, false) 0 i * U (0, true) (len 0) i) / n / phiTot

theorem prod_error {a b a' b' D B : ℝ} (h1 : |a - a'| ≤ D) (h2 : |b - b'| ≤ D) (h3 : |a'| ≤ B)
    (h4 : |b'| ≤ B) (hB : 0 ≤ B) : |a * b - a' * b'| ≤ (B + D + B) * D := by
  have hD : 0 ≤ D := (abs_nonneg _).trans h1
  have e : a * b - a' * b' = (a - a') * b + a' * (b - b') := by ring
  have hb : |b| ≤ B + D := by
    have := abs_add_le (b - b') b'
    rw [sub_add_cancel] at this
    linarith
  rw [e]
  refine (abs_add_le _ _).trans ?_
  rw [abs_mul, abs_mul]
  have t1 : |a - a'| * |b| ≤ D * (B + D) := mul_le_mul h1 hb (abs_nonneg _) hD
  have t2 : |a'| * |b - b'| ≤ B * D := mul_le_mul h3 h2 (abs_nonneg _) hB
  linarith

theorem Q_error (hr : readTopology es fuel = some (.ok P)) (hes : es ≠ []) (hk : Even ksq)
    (hlen : ∀ k, 0 ≤ len k) (hU : Exact en es P.vertices w len kuhn ksq U) (phiTot : ℝ) :
    ∃ C, 0 ≤ C ∧ ∀ mm : Nat → Nat, (∀ k, 1 ≤ mm k) → ∀ st Q,
      polymerSolve (dftKin en) false (fine w len kuhn ksq mm) es P.vertices P.plan phiTot =
        .ok (st, Q) → |Q - exactQ len U phiTot| ≤ C * errSize es mm := by
  obtain ⟨C, hC, h⟩ := plan_error en hr hk hlen hU P.plan [] (by simp)
  set B := ‖U (0, false) 0‖ + ‖U (0, true) (len 0)‖ with hB
  have hB0 : 0 ≤ B := by positivity
  refine ⟨n * ((B + C * es.length + B) * C) / n / |phiTot|, by positivity, fun mm hmm st Q hs => ?_⟩
  have hP := fine_ok en hr w len kuhn ksq hmm
  obtain ⟨_, hv, hsch⟩ := plan_facts hP
  obtain ⟨hd, hQ⟩ := polymerSolve_inv hP hes hs
  have h0 : 0 < es.length := List.length_pos_iff.2 hes
  have hm0 := (hsch.complete (0, false)).2 h0
  have hm1 := (hsch.complete (0, true)).2 h0
  have he0 := errSize_nonneg es mm
  have hel := errSize_le es mm hmm
  have a1 := h mm hmm st hd _ hm0 0 (by omega)
  have a2 := h mm hmm st hd _ hm1 (2 * mm 0) le_rfl
  rw [solveFrom_zero] at a1
  have e : (((2 * mm 0 : Nat) : ℝ)) * (len 0 / ((2 * mm 0 : Nat) : ℝ)) = len 0 := by
    have : (((2 * mm 0 : Nat) : ℝ)) ≠ 0 := by
      have := hmm 0
      exact_mod_cast (by omega : 2 * mm 0 ≠ 0)
    field_simp
  simp only at a2
  rw [e] at a2
  have e2 : solveFrom (dftKin en) false (fine w len kuhn ksq mm) es P.vertices (0, true)
      (headOf st (0, true)) (2 * mm 0) = tailOf (fine w len kuhn ksq mm) st (0, true) :=
    (tailOf_eq hd hm1).symm
  rw [e2] at a2
  simp only [Nat.cast_zero, zero_mul] at a1
  rw [← hQ]
  unfold exactQ dot
  rw [← sub_div, ← sub_div, ← Finset.sum_sub_distrib, abs_div, abs_div]
  have hsum : |∑ i, (headOf st (0, false) i * tailOf (fine w len kuhn ksq mm) st (0, true) i -
      U (0, false) 0 i * U (0, true) (len 0) i)| ≤
      n * ((B + C * es.length + B) * C) * errSize es mm := by
    refine (Finset.abs_sum_le_sum_abs _ _).trans ?_
    refine (Finset.sum_le_card_nsmul _ _ ((B + C * es.length + B) * C * errSize es mm)
      fun i _ => ?_).trans (by simp [mul_assoc])
    have hb1 : |U (0, false) 0 i| ≤ B := (norm_le_pi_norm (U (0, false) 0) i).trans (by
      rw [hB]; have := norm_nonneg (U (0, true) (len 0)); linarith)
    have hb2 : |U (0, true) (len 0) i| ≤ B := (norm_le_pi_norm (U (0, true) (len 0)) i).trans (by
      rw [hB]; have := norm_nonneg (U (0, false) 0); linarith)
    have := prod_error ((norm_le_pi_norm _ i).trans a1) ((norm_le_pi_norm _ i).trans a2) hb1 hb2 hB0
    refine this.trans ?_
    have h5 : C * errSize es mm ≤ C * es.length := mul_le_mul_of_nonneg_left hel hC
    rw [mul_assoc]
    exact mul_le_mul_of_nonneg_right (by linarith) (by positivity)
  have hn : |(n : ℝ)| = n := abs_of_nonneg (Nat.cast_nonneg n)
  rw [hn]
  calc _ ≤ n * ((B + C * es.length + B) * C) * errSize es mm / n / |phiTot| := by gcongr
    _ = _ := by ring

/-- **C88**: fourth order convergence of the partition function. -/
theorem C88_partition_function (hr : readTopology es fuel = some (.ok P)) (hes : es ≠ [])
    (hk : Even ksq) (hlen : ∀ k, 0 ≤ len k) (hU : Exact en es P.vertices w len kuhn ksq U)
    (phiTot : ℝ) :
    ∃ C, ∀ mm : Nat → Nat, (∀ k, 1 ≤ mm k) → ∃ st Q,
      polymerSolve (dftKin en) false (fine w len kuhn ksq mm) es P.vertices P.plan phiTot =
        .ok (st, Q) ∧ |Q - exactQ len U phiTot| ≤ C * errSize es mm := by
  obtain ⟨C, _, h⟩ := Q_error en hr hes hk hlen hU phiTot
  refine ⟨C, fun mm hmm => ?_⟩
  obtain ⟨st, Q, hs⟩ := C53_solve_succeeds (fine_ok en hr w len kuhn ksq hmm) hes phiTot
  exact ⟨st, Q, hs, h mm hmm st Q hs⟩

/-! ### Concentrations -/

theorem loop2_range {K : Type} [Field K] (f : Nat → K) : ∀ (k j : Nat) (acc : K),
    loop2 f j (j + 2 * k) acc = acc + ∑ p ∈ Finset.range k, f (j + 2 * p)
  | 0, j, acc => by rw [loop2, if_neg (by omega)]; simp
  | k + 1, j, acc => by
    rw [loop2, if_pos (by omega), show j + 2 * (k + 1) = (j + 2) + 2 * k by ring,
      loop2_range f k (j + 2), Finset.sum_range_succ']
    have : ∀ p, j + 2 * (p + 1) = j + 2 + 2 * p := fun p => by ring
    simp only [this, mul_zero, add_zero]
    ring

/-- Simpson sums in the order used by the code. -/
theorem simpson_order_sum {K : Type} [Field K] (f : Nat → K) : ∀ m : Nat,
    f 0 + f (2 * (m + 1)) + ∑ p ∈ Finset.range (m + 1), f (1 + 2 * p) * 4 +
      ∑ p ∈ Finset.range m, f (2 + 2 * p) * 2 =
    ∑ p ∈ Finset.range (m + 1), (f (2 * p) + 4 * f (2 * p + 1) + f (2 * p + 2))
  | 0 => by simp; ring
  | m + 1 => by
    rw [Finset.sum_range_succ (fun p => f (2 * p) + 4 * f (2 * p + 1) + f (2 * p + 2)) (m + 1),
      ← simpson_order_sum f m, Finset.sum_range_succ (fun p => f (1 + 2 * p) * 4) (m + 1),
      Finset.sum_range_succ (fun p => f (2 + 2 * p) * 2) m]
    rw [show 2 * (m + 1 + 1) = 2 * (m + 1) + 2 by ring, show 2 + 2 * m = 2 * (m + 1) by ring,
      show 1 + 2 * (m + 1) = 2 * (m + 1) + 1 by ring]
    ring

theorem concThread_simpson {K : Type} [Field K] (mm : Nat) (hm : 1 ≤ mm) (ds pre : K)
    (q0 q1 : Nat → Fld n K) (i : Fin n) :
    concThread (2 * mm + 1) ds pre q0 q1 i = pre * ∑ p ∈ Finset.range mm, ds / 3 *
      (q0 (2 * p) i * q1 (2 * mm - 2 * p) i + 4 * (q0 (2 * p + 1) i * q1 (2 * mm - (2 * p + 1)) i) +
        q0 (2 * p + 2) i * q1 (2 * mm - (2 * p + 2)) i) := by
  obtain ⟨r, rfl⟩ : ∃ r, mm = r + 1 := ⟨mm - 1, by omega⟩
  set f : Nat → K := fun j => q0 j i * q1 (2 * (r + 1) - j) i with hf
  unfold concThread
  simp only [Nat.add_sub_cancel]
  have e1 : ∀ acc, loop2 (fun j => q0 j i * q1 (2 * (r + 1) - j) i * 4) 1 (2 * (r + 1)) acc =
      acc + ∑ p ∈ Finset.range (r + 1), f (1 + 2 * p) * 4 := by
    intro acc
    have := loop2_range (fun j => q0 j i * q1 (2 * (r + 1) - j) i * 4) (r + 1) 1 acc
    rw [loop2_bound] at this
    rw [← this]; congr 1; omega
  have e2 : ∀ acc, loop2 (fun j => q0 j i * q1 (2 * (r + 1) - j) i * 2) 2 (2 * (r + 1) + 1 - 2) acc =
      acc + ∑ p ∈ Finset.range r, f (2 + 2 * p) * 2 := by
    intro acc
    have := loop2_range (fun j => q0 j i * q1 (2 * (r + 1) - j) i * 2) r 2 acc
    rw [loop2_bound] at this
    rw [← this]; congr 1; omega
  rw [e1, e2]
  have h0 : q0 0 i * q1 (2 * (r + 1)) i = f 0 := rfl
  have h1 : q0 (2 * (r + 1)) i * q1 0 i = f (2 * (r + 1)) := by simp [hf]
  rw [h0, h1, zero_add, simpson_order_sum f r, ← Finset.mul_sum]
  have h2 : ∀ p, q0 (2 * p) i * q1 (2 * (r + 1) - 2 * p) i = f (2 * p) := fun _ => rfl
  have h3 : ∀ p, q0 (2 * p + 1) i * q1 (2 * (r + 1) - (2 * p + 1)) i = f (2 * p + 1) := fun _ => rfl
  have h4 : ∀ p, q0 (2 * p + 2) i * q1 (2 * (r + 1) - (2 * p + 2)) i = f (2 * p + 2) := fun _ => rfl
  simp only [h2, h3, h4]
  ring

theorem mde_smooth {w : Fld n ℝ} {kuhn : ℝ} {u : ℝ → Fld n ℝ} (hu : IsMDE en w kuhn ksq u)
    (i : Fin n) : ContDiff ℝ 4 (fun s => u s i) := by
  have h1 : ContDiff ℝ 4 (exp : (Fld n ℝ →L[ℝ] Fld n ℝ) → _) :=
    contDiff_iff_contDiffAt.2 fun x => (exp_analytic (𝕂 := ℝ) x).contDiffAt
  have h2 : ContDiff ℝ 4 (fun s : ℝ => exp (s • gen en w kuhn ksq)) :=
    h1.comp (contDiff_id.smul contDiff_const)
  have h3 : ContDiff ℝ 4 (fun s : ℝ => exp (s • gen en w kuhn ksq) (u 0)) :=
    h2.clm_apply contDiff_const
  have e : (fun s => u s i) = fun s => exp (s • gen en w kuhn ksq) (u 0) i := by
    funext s
    rw [mde_eq_exp en hu s]
  rw [e]
  exact contDiff_pi.1 h3 i

/-- Error of the contour integral of a product of two propagators of a block. -/
theorem pair_error (hr : readTopology es fuel = some (.ok P)) (hk : Even ksq)
    (hlen : ∀ k, 0 ≤ len k) (hU : Exact en es P.vertices w len kuhn ksq U)
    (k : Nat) (hkl : k < es.length) (i i' : Fin n) :
    ∃ S, 0 ≤ S ∧ ∀ mm : Nat → Nat, (∀ k, 1 ≤ mm k) →
      ∀ st, Done (dftKin en) false (fine w len kuhn ksq mm) es P.vertices P.plan st →
      ∀ q0 q1, st (k, false) = some q0 → st (k, true) = some q1 →
      |(∑ p ∈ Finset.range (mm k), len k / ((2 * mm k : Nat) : ℝ) / 3 *
        (q0 (2 * p) i * q1 (2 * mm k - 2 * p) i' +
          4 * (q0 (2 * p + 1) i * q1 (2 * mm k - (2 * p + 1)) i') +
          q0 (2 * p + 2) i * q1 (2 * mm k - (2 * p + 2)) i')) -
        ∫ s in (0 : ℝ)..len k, U (k, false) s i * U (k, true) (len k - s) i'| ≤
          S * errSize es mm := by
  obtain ⟨C, hC, hp⟩ := plan_error en hr hk hlen hU P.plan [] (by simp)
  set f : ℝ → ℝ := fun s => U (k, false) s i * U (k, true) (len k - s) i' with hf
  have s0 := mde_smooth en (hU.mde (k, false) hkl) i
  have s1 := mde_smooth en (hU.mde (k, true) hkl) i'
  have hfs : ContDiff ℝ 4 f := s0.mul (s1.comp (contDiff_const.sub contDiff_id))
  obtain ⟨Cs, hCs, hsim⟩ := simpson_order (f := f) (len k) (hlen k) hfs
  obtain ⟨B0, hB0⟩ := (isCompact_Icc (a := (0 : ℝ)) (b := len k)).exists_bound_of_continuousOn
    s0.continuous.continuousOn
  obtain ⟨B1, hB1⟩ := (isCompact_Icc (a := (0 : ℝ)) (b := len k)).exists_bound_of_continuousOn
    s1.continuous.continuousOn
  set B := |B0| + |B1| with hB
  have hBn : 0 ≤ B := by positivity
  set I := ∫ s in (0 : ℝ)..len k, f s with hI
  set F := (B + C * es.length + B) * C with hF
  have hF0 : 0 ≤ F := by positivity
  set S := len k * F + 16 * Cs with hS
  have hS0 : 0 ≤ S := by have := hlen k; positivity
  refine ⟨S, hS0, fun mm hmm st hd q0 q1 hst0 hst1 => ?_⟩
  have hP := fine_ok en hr w len kuhn ksq hmm
  obtain ⟨_, hv, hsch⟩ := plan_facts hP
  have he0 := errSize_nonneg es mm
  have hel := errSize_le es mm hmm
  have hm0 := (hsch.complete (k, false)).2 hkl
  have hm1 := (hsch.complete (k, true)).2 hkl
  have es0 : st (k, false) = _ := st_eq hd hm0
  have es1 : st (k, true) = _ := st_eq hd hm1
  rw [hst0] at es0
  rw [hst1] at es1
  injection es0 with es0
  injection es1 with es1
  have hmk := hmm k
  have hmpos : (0 : ℝ) < mm k := by exact_mod_cast hmk
  set ds := len k / ((2 * mm k : Nat) : ℝ) with hds
  have hds0 : 0 ≤ ds := by have := hlen k; positivity
  have hLds : ((2 * mm k : Nat) : ℝ) * ds = len k := by
    rw [hds]; push_cast; field_simp
  -- numerical products against exact products
  have hpt : ∀ j, j ≤ 2 * mm k →
      |q0 j i * q1 (2 * mm k - j) i' - f (j * ds)| ≤ F * errSize es mm := by
    intro j hj
    have a0 := hp mm hmm st hd _ hm0 j hj
    have a1 := hp mm hmm st hd _ hm1 (2 * mm k - j) (Nat.sub_le _ _)
    rw [← es0] at a0
    rw [← es1] at a1
    have ej : ((2 * mm k - j : Nat) : ℝ) * ds = len k - j * ds := by
      rw [Nat.cast_sub hj, sub_mul, hLds]
    simp only at a0 a1
    rw [← hds, ej] at a1
    have hj0 : 0 ≤ (j : ℝ) * ds := by positivity
    have hjL : (j : ℝ) * ds ≤ len k := by
      rw [← hLds]
      exact mul_le_mul_of_nonneg_right (by exact_mod_cast hj) hds0
    have b0 : |U (k, false) (j * ds) i| ≤ B := (hB0 _ ⟨hj0, hjL⟩).trans
      ((le_abs_self _).trans (by rw [hB]; have := abs_nonneg B1; linarith))
    have b1 : |U (k, true) (len k - j * ds) i'| ≤ B := (hB1 _ ⟨by linarith, by linarith⟩).trans
      ((le_abs_self _).trans (by rw [hB]; have := abs_nonneg B0; linarith))
    have := prod_error ((norm_le_pi_norm _ i).trans a0) ((norm_le_pi_norm _ i').trans a1) b0 b1 hBn
    refine this.trans ?_
    have h5 : C * errSize es mm ≤ C * es.length := mul_le_mul_of_nonneg_left hel hC
    rw [hF, mul_assoc]
    exact mul_le_mul_of_nonneg_right (by linarith) (by positivity)
  set T := ∑ p ∈ Finset.range (mm k), ds / 3 *
      (q0 (2 * p) i * q1 (2 * mm k - 2 * p) i' +
        4 * (q0 (2 * p + 1) i * q1 (2 * mm k - (2 * p + 1)) i') +
        q0 (2 * p + 2) i * q1 (2 * mm k - (2 * p + 2)) i') with hT
  have hT1 : |T - ∑ p ∈ Finset.range (mm k), ds / 3 *
      (f ((2 * p) * ds) + 4 * f ((2 * p + 1) * ds) + f ((2 * p + 2) * ds))| ≤
      len k * F * errSize es mm := by
    rw [hT, ← Finset.sum_sub_distrib]
    refine (Finset.abs_sum_le_sum_abs _ _).trans ?_
    refine (Finset.sum_le_card_nsmul _ _ (2 * ds * (F * errSize es mm)) fun p hp => ?_).trans ?_
    · rw [Finset.mem_range] at hp
      have x0 := hpt (2 * p) (by omega)
      have x1 := hpt (2 * p + 1) (by omega)
      have x2 := hpt (2 * p + 2) (by omega)
      push_cast at x0 x1 x2
      rw [← mul_sub, abs_mul, abs_of_nonneg (by positivity : 0 ≤ ds / 3)]
      have : |q0 (2 * p) i * q1 (2 * mm k - 2 * p) i' +
          4 * (q0 (2 * p + 1) i * q1 (2 * mm k - (2 * p + 1)) i') +
          q0 (2 * p + 2) i * q1 (2 * mm k - (2 * p + 2)) i' -
          (f (2 * p * ds) + 4 * f ((2 * p + 1) * ds) + f ((2 * p + 2) * ds))| ≤
          6 * (F * errSize es mm) := by
        rw [abs_le] at *
        constructor <;> linarith [x0.1, x0.2, x1.1, x1.2, x2.1, x2.2]
      calc _ ≤ ds / 3 * (6 * (F * errSize es mm)) := mul_le_mul_of_nonneg_left this (by positivity)
        _ = _ := by ring
    · rw [Finset.card_range, nsmul_eq_mul]
      apply le_of_eq
      rw [← hLds]; push_cast; ring
  have h1 := hsim (mm k) hmk
  have e : len k / (2 * (mm k : ℝ)) = ds := by rw [hds]; push_cast; rfl
  rw [e] at h1
  have h2 : Cs / (mm k : ℝ) ^ 4 ≤ 16 * Cs * errSize es mm := by
    have h3 := le_errSize es mm hkl
    have h4 : Cs / (mm k : ℝ) ^ 4 = 16 * Cs * (1 / (((2 * mm k : Nat) : ℝ)) ^ 4) := by
      push_cast; field_simp; norm_num
    rw [h4]
    exact mul_le_mul_of_nonneg_left h3 (by positivity)
  rw [hS, add_mul]
  rw [abs_le] at *
  constructor <;> linarith [h1.1, h1.2, hT1.1, hT1.2]

/-- Error of a quotient by the partition function. -/
theorem quot_error {Q Qe T I phi total S CQ e : ℝ} (hQe : Qe ≠ 0) (hCQ : 0 ≤ CQ) (hS : 0 ≤ S)
    (he0 : 0 ≤ e) (hsmall : e < |Qe| / 2 / (CQ + 1)) (hQ1 : |Q - Qe| ≤ CQ * e)
    (hT2 : |T - I| ≤ S * e) :
    |phi / (Q * total) * T - phi / (Qe * total) * I| ≤
      |phi / total| * (2 / |Qe| * S + |I| * (2 / |Qe| / |Qe|) * CQ) * e := by
  have hQa : 0 < |Qe| := abs_pos.2 hQe
  have hQ2 : |Qe| / 2 ≤ |Q| := by
    have h1 : CQ * e ≤ |Qe| / 2 := by
      have h2 : e * (CQ + 1) < |Qe| / 2 := by
        rwa [lt_div_iff₀ (by positivity)] at hsmall
      nlinarith
    have h3 := abs_sub_abs_le_abs_sub Qe Q
    rw [abs_sub_comm] at h3
    linarith
  have hQne : Q ≠ 0 := by
    intro h0
    rw [h0, abs_zero] at hQ2
    linarith
  have hQinv : 1 / |Q| ≤ 2 / |Qe| := by
    rw [div_le_div_iff₀ (abs_pos.2 hQne) hQa]
    linarith
  have e : phi / (Q * total) * T - phi / (Qe * total) * I =
      phi / total * ((T - I) * (1 / Q) + I * ((Qe - Q) * (1 / Q / Qe))) := by
    rw [div_mul_eq_div_div_swap, div_mul_eq_div_div_swap]
    field_simp
    ring
  rw [e, abs_mul, mul_assoc]
  apply mul_le_mul_of_nonneg_left _ (abs_nonneg _)
  refine (abs_add_le _ _).trans ?_
  rw [abs_mul, abs_mul, abs_mul, abs_div (1 / Q), abs_div, abs_one]
  have t1 := mul_le_mul hT2 hQinv (by positivity) (by positivity)
  have t2 := mul_le_mul (abs_sub_comm Q Qe ▸ hQ1)
    (by gcongr : 1 / |Q| / |Qe| ≤ 2 / |Qe| / |Qe|) (by positivity) (by positivity)
  have t3 := mul_le_mul_of_nonneg_left t2 (abs_nonneg I)
  calc _ ≤ _ := add_le_add t1 t3
    _ = _ := by ring

/-- **C88**: fourth order convergence of the concentrations to the contour integrals of the exact
propagators, for sufficiently fine discretisation. -/
theorem C88_concentration (hr : readTopology es fuel = some (.ok P)) (hes : es ≠ []) (hk : Even ksq)
    (hlen : ∀ k, 0 ≤ len k) (hU : Exact en es P.vertices w len kuhn ksq U) (phi phiTot total : ℝ)
    (hQe : exactQ len U phiTot ≠ 0) (k : Nat) (hkl : k < es.length) (i : Fin n) :
    ∃ C δ, 0 < δ ∧ ∀ mm : Nat → Nat, (∀ k, 1 ≤ mm k) → errSize es mm < δ → ∃ st Q c,
      polymerSolve (dftKin en) false (fine w len kuhn ksq mm) es P.vertices P.plan phiTot =
        .ok (st, Q) ∧
      blockConc false (fine w len kuhn ksq mm) st phi Q total k = some c ∧
      |c i - phi / (exactQ len U phiTot * total) *
        ∫ s in (0 : ℝ)..len k, U (k, false) s i * U (k, true) (len k - s) i| ≤
          C * errSize es mm := by
  obtain ⟨CQ, hCQ, hQ⟩ := Q_error en hr hes hk hlen hU phiTot
  obtain ⟨S, hS, hpair⟩ := pair_error en hr hk hlen hU k hkl i i
  refine ⟨|phi / total| * (2 / |exactQ len U phiTot| * S +
    |∫ s in (0 : ℝ)..len k, U (k, false) s i * U (k, true) (len k - s) i| *
      (2 / |exactQ len U phiTot| / |exactQ len U phiTot|) * CQ),
    |exactQ len U phiTot| / 2 / (CQ + 1), by have := abs_pos.2 hQe; positivity,
    fun mm hmm hsmall => ?_⟩
  have hP := fine_ok en hr w len kuhn ksq hmm
  obtain ⟨_, hv, hsch⟩ := plan_facts hP
  obtain ⟨st, Q, hs⟩ := C53_solve_succeeds hP hes phiTot
  obtain ⟨hd, _⟩ := polymerSolve_inv hP hes hs
  have es0 := st_eq hd ((hsch.complete (k, false)).2 hkl)
  have es1 := st_eq hd ((hsch.complete (k, true)).2 hkl)
  refine ⟨st, Q, concThread (2 * mm k + 1) (len k / ((2 * mm k : Nat) : ℝ)) (phi / (Q * total)) _ _,
    hs, by unfold blockConc; rw [es0, es1]; rfl, ?_⟩
  have hT := hpair mm hmm st hd _ _ es0 es1
  have := quot_error (phi := phi) (total := total) hQe hCQ hS (errSize_nonneg es mm) hsmall
    (hQ mm hmm st Q hs) hT
  refine le_trans (le_of_eq ?_) this
  congr 2
  exact concThread_simpson (mm k) (hmm k) _ _ _ _ i

/-! ### Existence of the exact problem -/

theorem exact_part (hr : readTopology es fuel = some (.ok P)) (w : Nat → Fld n ℝ)
    (len kuhn : Nat → ℝ) (ksq : Half N → ℝ) : ∀ (l l2 : List Pid), P.plan = l ++ l2 →
    ∃ U : Pid → ℝ → Fld n ℝ, ∀ p ∈ l, IsMDE en (w p.1) (kuhn p.1) ksq (U p) ∧
      ∀ i, U p 0 i = ((sources es P.vertices p).map (fun s => U s (len s.1) i)).prod := by
  obtain ⟨hnd, hv, hsch⟩ := plan_facts (fine_ok en hr w len kuhn ksq (mm := fun _ => 1) (by simp))
  intro l
  induction l using List.reverseRecOn with
  | nil => intro _ _; exact ⟨fun _ _ _ => 0, fun p hp => by simp at hp⟩
  | append_singleton l q ih =>
    intro l2 he
    obtain ⟨U, hU⟩ := ih (q :: l2) (by rw [he]; simp)
    have hq : q.1 < es.length := (hsch.complete q).1 (by rw [he]; simp)
    have hql : q ∉ l := by
      have := hsch.nodup
      rw [he] at this
      simp only [List.append_assoc, List.nodup_append] at this
      intro h
      exact this.2.2 q h q (by simp) rfl
    have hsl : ∀ p ∈ l ++ [q], ∀ s ∈ sources es P.vertices p, s ≠ q := by
      intro p hp s hs
      rw [List.mem_append, List.mem_singleton] at hp
      rcases hp with hp | rfl
      · obtain ⟨a, b, hab⟩ := List.append_of_mem hp
        have hpl : p.1 < es.length := (hsch.complete p).1 (by rw [he]; simp [hp])
        have := hsch.ordered a p (b ++ q :: l2) (by rw [he, hab]; simp) s
          ((mem_sources hv hpl).1 hs)
        intro h
        exact hql (by rw [hab, ← h]; simp [this])
      · have := hsch.ordered l p l2 (by rw [he]; simp) s ((mem_sources hv hq).1 hs)
        intro h
        exact hql (h ▸ this)
    refine ⟨fun p => if p = q then fun s => exp (s • gen en (w q.1) (kuhn q.1) ksq)
      (fun i => ((sources es P.vertices q).map (fun s => U s (len s.1) i)).prod) else U p,
      fun p hp => ?_⟩
    have hsrc : ∀ i, ((sources es P.vertices p).map (fun s => (if s = q then
        fun s => exp (s • gen en (w q.1) (kuhn q.1) ksq)
          (fun i => ((sources es P.vertices q).map (fun s => U s (len s.1) i)).prod)
        else U s) (len s.1) i)) = (sources es P.vertices p).map (fun s => U s (len s.1) i) := by
      intro i
      apply List.map_congr_left
      intro s hs
      rw [if_neg (hsl p hp s hs)]
    by_cases hpq : p = q
    · subst hpq
      simp only [if_true]
      refine ⟨exp_mde en _ _ _ _, fun i => ?_⟩
      rw [hsrc]
      simp
    · simp only [if_neg hpq]
      rw [List.mem_append, List.mem_singleton] at hp
      have := hU p (hp.resolve_right hpq)
      refine ⟨this.1, fun i => ?_⟩
      rw [hsrc]
      exact this.2 i

/-- **C88**: the exact problem of every polymer accepted by the reader has a solution. -/
theorem C88_exact_exists (hr : readTopology es fuel = some (.ok P)) (w : Nat → Fld n ℝ)
    (len kuhn : Nat → ℝ) (ksq : Half N → ℝ) :
    ∃ U, Exact en es P.vertices w len kuhn ksq U := by
  obtain ⟨_, _, hsch⟩ := plan_facts (fine_ok en hr w len kuhn ksq (mm := fun _ => 1) (by simp))
  obtain ⟨U, hU⟩ := exact_part en hr w len kuhn ksq P.plan [] (by simp)
  exact ⟨U, fun p hp => (hU p ((hsch.complete p).2 hp)).1,
    fun p hp => (hU p ((hsch.complete p).2 hp)).2⟩

/-- **C88**: and only one. -/
theorem C88_exact_polymer_unique (hr : readTopology es fuel = some (.ok P))
    {U' : Pid → ℝ → Fld n ℝ} (hU : Exact en es P.vertices w len kuhn ksq U)
    (hU' : Exact en es P.vertices w len kuhn ksq U') (p : Pid) (hp : p.1 < es.length) :
    U p = U' p := by
  obtain ⟨_, hv, hsch⟩ := plan_facts (fine_ok en hr w len kuhn ksq (mm := fun _ => 1) (by simp))
  have key : ∀ (l l2 : List Pid), P.plan = l ++ l2 → ∀ q ∈ l, U q = U' q := by
    intro l
    induction l using List.reverseRecOn with
    | nil => intro _ _ q hq; simp at hq
    | append_singleton l q ih =>
      intro l2 he r hm
      have ihl := ih (q :: l2) (by rw [he]; simp)
      rw [List.mem_append, List.mem_singleton] at hm
      rcases hm with hm | rfl
      · exact ihl r hm
      · have hrl : r.1 < es.length := (hsch.complete r).1 (by rw [he]; simp)
        have h0 : U r 0 = U' r 0 := by
          funext i
          rw [hU.head r hrl i, hU'.head r hrl i]
          congr 1
          apply List.map_congr_left
          intro s hs
          rw [ihl s (hsch.ordered l r l2 (by rw [he]; simp) s ((mem_sources hv hrl).1 hs))]
        funext s
        rw [mde_eq_exp en (hU.mde r hrl) s, mde_eq_exp en (hU'.mde r hrl) s, h0]
  exact key P.plan [] (by simp) p ((hsch.complete p).2 hp)

/-! ### Examples -/

theorem dot_gen (w : Fld n ℝ) (kuhn : ℝ) (ksq : Half N → ℝ) (x y : Fld n ℝ) :
    dot (gen en w kuhn ksq x) y = dot x (gen en w kuhn ksq y) := by
  have h := dft_selfAdjoint en ksq x y
  unfold dot at *
  simp only [gen_apply, sub_mul, mul_sub, Finset.sum_sub_distrib]
  congr 1
  · exact Finset.sum_congr rfl fun i _ => by ring
  · calc _ = kuhn ^ 2 / 6 * ∑ i, dftKin en ksq x i * y i := by
          rw [Finset.mul_sum]; exact Finset.sum_congr rfl fun i _ => by ring
      _ = _ := by
          rw [h, Finset.mul_sum]; exact Finset.sum_congr rfl fun i _ => by ring

/-- The exact propagation along a block is symmetric. -/
theorem exp_gen_sym (w : Fld n ℝ) (kuhn : ℝ) (ksq : Half N → ℝ) (L : ℝ) (x y : Fld n ℝ) :
    dot (exp (L • gen en w kuhn ksq) x) y = dot x (exp (L • gen en w kuhn ksq) y) := by
  set Z := gen en w kuhn ksq with hZ
  have hd : ∀ z : Fld n ℝ, ∀ s : ℝ, HasDerivAt (fun s : ℝ => exp (s • Z) z) (Z (exp (s • Z) z)) s :=
    fun z s => (mde_iff en w kuhn ksq _).1 (exp_mde en w kuhn ksq z) s
  have hdi : ∀ z : Fld n ℝ, ∀ (s : ℝ) (i : Fin n),
      HasDerivAt (fun s : ℝ => exp (s • Z) z i) (Z (exp (s • Z) z) i) s := fun z s i =>
    (hasDerivAt_pi.1 (hd z s)) i
  have hg : ∀ s, HasDerivAt (fun s : ℝ => dot (exp (s • Z) x) (exp ((L - s) • Z) y)) 0 s := by
    intro s
    have h1 : ∀ i, HasDerivAt (fun s : ℝ => exp ((L - s) • Z) y i)
        (-(Z (exp ((L - s) • Z) y) i)) s := by
      intro i
      have := (hdi y (L - s) i).comp s ((hasDerivAt_id s).const_sub L)
      refine this.congr_deriv ?_
      simp
    unfold dot
    refine (HasDerivAt.fun_sum fun i _ => (hdi x s i).fun_mul (h1 i)).congr_deriv ?_
    have := dot_gen en w kuhn ksq (exp (s • Z) x) (exp ((L - s) • Z) y)
    unfold dot at this
    rw [Finset.sum_add_distrib, this]
    rw [← Finset.sum_add_distrib]
    apply Finset.sum_eq_zero
    intro i _
    ring
  have := is_const_of_deriv_eq_zero (fun s => (hg s).differentiableAt) (fun s => (hg s).deriv) L 0
  simpa using this

/-- A homopolymer in an arbitrary field: the exact problem has a solution, with a partition function
different from zero, so that all hypotheses of `C88_concentration` are met. -/
theorem homopolymer_exact (w : Fld n ℝ) (L kuhn : ℝ) (ksq : Half N → ℝ) :
    ∃ (P : Polymer) (U : Pid → ℝ → Fld n ℝ), readTopology [(0, 1)] 4 = some (.ok P) ∧
      Exact en [(0, 1)] P.vertices (fun _ => w) (fun _ => L) (fun _ => kuhn) ksq U ∧
      exactQ (fun _ => L) U 1 ≠ 0 := by
  obtain ⟨P, hP, hs⟩ : ∃ P : Polymer, readTopology [(0, 1)] 4 = some (.ok P) ∧
      ∀ d, sources [(0, 1)] P.vertices (0, d) = [] :=
    ⟨_, rfl, fun d => by cases d <;> rfl⟩
  obtain ⟨U, hU⟩ := C88_exact_exists en hP (fun _ => w) (fun _ => L) (fun _ => kuhn) ksq
  refine ⟨P, U, hP, hU, ?_⟩
  have h1 : ∀ d, U (0, d) 0 = fun _ => 1 := by
    intro d
    funext i
    rw [hU.head (0, d) (by simp) i, hs d]
    rfl
  have h2 := mde_eq_exp en (hU.mde (0, true) (by simp)) L
  set Z := gen en w kuhn ksq with hZ
  let _ : NormedAlgebra ℚ (Fld n ℝ →L[ℝ] Fld n ℝ) := NormedAlgebra.restrictScalars ℚ ℝ _
  have h3 : exp (L • Z) = exp ((L / 2) • Z) * exp ((L / 2) • Z) := by
    rw [← exp_add_of_commute (Commute.refl _), ← add_smul]
    congr 2; ring
  set v : Fld n ℝ := exp ((L / 2) • Z) (fun _ => 1) with hv
  have h4 : ∑ i, U (0, false) 0 i * U (0, true) L i = ∑ i, v i * v i := by
    have := exp_gen_sym en w kuhn ksq (L / 2) (fun _ => 1) v
    rw [h1, h2, h1]
    show ∑ i, 1 * (exp (L • Z) fun _ => 1) i = _
    rw [h3]
    exact this.symm
  have hne : v ≠ 0 := by
    intro h0
    have h5 : exp ((-(L / 2)) • Z) v = fun _ => 1 := by
      rw [hv, ← mul_apply_eq_comp, ← exp_add_of_commute
        ((Commute.refl Z).smul_left _ |>.smul_right _), ← add_smul]
      simp
    rw [h0, map_zero] at h5
    have hn : 0 < n := Nat.pos_of_ne_zero (by
      intro h; have := n_ne en; exact this (by simp [h]))
    have := congrFun h5 ⟨0, hn⟩
    simp at this
  unfold exactQ
  rw [h4]
  have : ∑ i, v i * v i ≠ 0 := by
    intro h0
    rw [Finset.sum_eq_zero_iff_of_nonneg (fun i _ => mul_self_nonneg (v i))] at h0
    exact hne (funext fun i => by simpa using h0 i (Finset.mem_univ i))
  have hn := n_ne en
  simp [this, hn]

example : Even (N := fun _ : Fin 1 => 4) (fun k => ((k.1 0).val : ℝ) ^ 2) ∧
    (∃ P, readTopology exEdges 6 = some (.ok P)) ∧ exEdges ≠ [] := by
  refine ⟨?_, exRead, by simp [exEdges]⟩
  intro k h h'
  have : ∀ x : ZMod 4, x.val ≤ 2 → (-x).val ≤ 2 → (-x).val = x.val := by decide
  show (((-k 0).val : ℝ)) ^ 2 = ((k 0).val : ℝ) ^ 2
  rw [this (k 0) h h']

end Verif.Solver
