import Verif.Solver.Dft
import Verif.Solver.Props
import Mathlib.Analysis.RCLike.Basic
import Mathlib.Algebra.BigOperators.Ring.Finset
import Mathlib.NumberTheory.LegendreSymbol.AddCharacter

/-!
# C78, C79: discrete Fourier transforms and exactness for homogeneous fields

Also C53, C54 for the Fourier step of the code, without contract.
-/

set_option autoImplicit false
set_option linter.unusedSectionVars false

namespace Verif.Solver

open Verif.Chem

variable {m : Nat} {N : Fin (m + 1) → Nat} [∀ d, NeZero (N d)]

theorem wave_add (k x y : Grid N) : wave k (x + y) = wave k x * wave k y := by
  unfold wave
  rw [← Finset.prod_mul_distrib]
  apply Finset.prod_congr rfl
  intro d _
  rw [Pi.add_apply, mul_add, AddChar.map_add_eq_mul]

theorem wave_comm (k x : Grid N) : wave k x = wave x k := by
  unfold wave
  simp only [mul_comm]

theorem wave_neg (k x : Grid N) : wave k (-x) = (starRingEnd ℂ) (wave k x) := by
  unfold wave
  rw [map_prod]
  apply Finset.prod_congr rfl
  intro d _
  rw [Pi.neg_apply, mul_neg, AddChar.map_neg_eq_conj]

theorem wave_sub (k x y : Grid N) : wave k (x - y) = wave k x * (starRingEnd ℂ) (wave k y) := by
  rw [sub_eq_add_neg, wave_add, wave_neg]

theorem wave_neg_left (k x : Grid N) : wave (-k) x = (starRingEnd ℂ) (wave k x) := by
  rw [wave_comm, wave_neg, wave_comm]

theorem sum_wave (x : Grid N) :
    ∑ k, wave k x = if x = 0 then (Fintype.card (Grid N) : ℂ) else 0 := by
  unfold wave
  rw [← Fintype.prod_sum (fun d (j : ZMod (N d)) => (ZMod.stdAddChar (j * x d) : ℂ))]
  simp only [AddChar.sum_mulShift _ (ZMod.isPrimitive_stdAddChar _)]
  split
  · rename_i h
    subst h
    simp
  · rename_i h
    obtain ⟨d, hd⟩ : ∃ d, x d ≠ 0 := by
      by_contra hc
      push Not at hc
      exact h (funext hc)
    exact Finset.prod_eq_zero (Finset.mem_univ d) (by simp [hd])

variable {n : Nat} (en : Fin n ≃ Grid N)

theorem card_grid (en : Fin n ≃ Grid N) : (Fintype.card (Grid N) : ℂ) = n := by
  rw [← Fintype.card_congr en, Fintype.card_fin]

theorem n_ne (en : Fin n ≃ Grid N) : (n : ℝ) ≠ 0 := by
  have : 0 < Fintype.card (Grid N) := Fintype.card_pos
  rw [← Fintype.card_congr en, Fintype.card_fin] at this
  exact_mod_cast this.ne'

/-- Fourier coefficient of a real field, for every wave. -/
noncomputable def coef (q : Fld n ℝ) (k : Grid N) : ℂ :=
  (∑ i, (q i : ℂ) * (starRingEnd ℂ) (wave k (en i))) * (1 / (n : ℝ) : ℝ)

theorem coef_neg (q : Fld n ℝ) (k : Grid N) : coef en q (-k) = (starRingEnd ℂ) (coef en q k) := by
  unfold coef
  simp [wave_neg_left, map_sum]

/-- A real multiplier given on the half mesh, extended to all waves. -/
def extR (f : Half N → ℝ) (k : Grid N) : ℝ :=
  if h : Stored k then f ⟨k, h⟩ else f ⟨-k, stored_neg h⟩

theorem extend_mul (q : Fld n ℝ) (f : Half N → ℝ) (k : Grid N) :
    extend (fun k => r2c en q k * (f k : ℂ)) k = coef en q k * (extR f k : ℂ) := by
  unfold extend extR
  split
  · rfl
  · rename_i h
    have : r2c en q ⟨-k, stored_neg h⟩ = coef en q (-k) := rfl
    rw [map_mul, this, coef_neg]
    simp

theorem dftKin_eq (f : Half N → ℝ) (q : Fld n ℝ) (i : Fin n) :
    dftKin en f q i = ∑ j, q j * ((1 / n) * ∑ k, extR f k * (wave k (en i - en j)).re) := by
  unfold dftKin c2r
  simp only [extend_mul, coef]
  simp only [Finset.sum_mul, Complex.re_sum]
  rw [Finset.sum_comm]
  apply Finset.sum_congr rfl
  intro j _
  rw [Finset.mul_sum, Finset.mul_sum]
  apply Finset.sum_congr rfl
  intro k _
  rw [wave_sub]
  have : (q j : ℂ) * (starRingEnd ℂ) (wave k (en j)) * ((1 / (n : ℝ) : ℝ) : ℂ) *
      (extR f k : ℂ) * wave k (en i) =
      ((q j * (1 / n) * extR f k : ℝ) : ℂ) *
        (wave k (en i) * (starRingEnd ℂ) (wave k (en j))) := by
    push_cast; ring
  rw [this, Complex.re_ofReal_mul]
  ring

/-- The Fourier step of the code is a symmetric operator, for every real multiplier. -/
theorem dft_selfAdjoint : SelfAdjoint (dftKin en) := by
  intro f x y
  unfold dot
  simp only [dftKin_eq, Finset.sum_mul, Finset.mul_sum]
  rw [Finset.sum_comm]
  apply Finset.sum_congr rfl
  intro i _
  apply Finset.sum_congr rfl
  intro j _
  apply Finset.sum_congr rfl
  intro k _
  have : (wave k (en j - en i)).re = (wave k (en i - en j)).re := by
    rw [← neg_sub, wave_neg, Complex.conj_re]
  rw [this]
  ring

/-! ## C78 -/

/-- **C78**: the inverse transform of the forward transform of a real field is the field, for
every mesh and field. -/
theorem C78_forward_inverse (q : Fld n ℝ) : c2r en (r2c en q) = q := by
  have h1 : c2r en (r2c en q) = dftKin en (fun _ => 1) q := by
    unfold dftKin; simp
  rw [h1]
  funext i
  rw [dftKin_eq]
  have hs : ∀ j, ∑ k, extR (N := N) (fun _ => 1) k * (wave k (en i - en j)).re =
      if j = i then (n : ℝ) else 0 := by
    intro j
    have : ∀ k : Grid N, extR (fun _ => (1 : ℝ)) k = 1 := fun k => by unfold extR; split <;> rfl
    simp only [this, one_mul]
    rw [← Complex.re_sum, sum_wave, card_grid en]
    simp only [sub_eq_zero, en.apply_eq_iff_eq]
    by_cases h : j = i
    · subst h; simp
    · simp [h, Ne.symm h]
  simp only [hs]
  have hn := n_ne en
  simp [hn]

/-- Coefficients of a real field: on the planes where a wave and its inverse are both stored they
are complex conjugates. -/
def Hermitian (X : Half N → ℂ) : Prop :=
  ∀ (k : Grid N) (h : Stored k) (h' : Stored (-k)), X ⟨-k, h'⟩ = (starRingEnd ℂ) (X ⟨k, h⟩)

theorem r2c_hermitian (q : Fld n ℝ) : Hermitian (r2c en q) := fun k _ _ => coef_neg en q k

theorem extend_neg {X : Half N → ℂ} (hX : Hermitian X) (k : Grid N) :
    extend X (-k) = (starRingEnd ℂ) (extend X k) := by
  unfold extend
  by_cases h : Stored k
  · by_cases h' : Stored (-k)
    · rw [dif_pos h, dif_pos h']; exact hX k h h'
    · rw [dif_pos h, dif_neg h']; simp
  · rw [dif_neg h, dif_pos (stored_neg h)]; simp

/-- **C78**: the forward transform of the inverse transform of Hermitian coefficients gives the
same coefficients; the coefficients of every real field are Hermitian. -/
theorem C78_inverse_forward (X : Half N → ℂ) (hX : Hermitian X) : r2c en (c2r en X) = X := by
  have hreal : ∀ i, ((c2r en X i : ℝ) : ℂ) = ∑ k : Grid N, extend X k * wave k (en i) := by
    intro i
    unfold c2r
    rw [← Complex.conj_eq_iff_re, map_sum]
    rw [← Equiv.sum_comp (Equiv.neg (Grid N))]
    apply Finset.sum_congr rfl
    intro k _
    simp only [Equiv.neg_apply]
    rw [map_mul, extend_neg hX, wave_neg_left]
    simp
  funext k0
  unfold r2c
  simp only [hreal, Finset.sum_mul]
  rw [Finset.sum_comm]
  have h1 : ∀ k : Grid N, ∑ i, extend X k * wave k (en i) * (starRingEnd ℂ) (wave k0.1 (en i)) *
      ((1 / (n : ℝ) : ℝ) : ℂ) = if k = k0.1 then extend X k else 0 := by
    intro k
    have h2 : ∑ i, wave k (en i) * (starRingEnd ℂ) (wave k0.1 (en i)) =
        if k = k0.1 then (n : ℂ) else 0 := by
      have h3 : ∀ i, wave k (en i) * (starRingEnd ℂ) (wave k0.1 (en i)) =
          wave (en i) (k - k0.1) := by
        intro i
        rw [wave_sub, wave_comm k, wave_comm k0.1]
      simp only [h3]
      rw [Equiv.sum_comp en (fun x => wave x (k - k0.1)), sum_wave, card_grid en]
      simp [sub_eq_zero]
    have h4 : ∀ i, extend X k * wave k (en i) * (starRingEnd ℂ) (wave k0.1 (en i)) *
        ((1 / (n : ℝ) : ℝ) : ℂ) = extend X k * ((1 / (n : ℝ) : ℝ) : ℂ) *
          (wave k (en i) * (starRingEnd ℂ) (wave k0.1 (en i))) := fun i => by ring
    simp only [h4]
    rw [← Finset.mul_sum, h2]
    have hn : (n : ℂ) ≠ 0 := by exact_mod_cast n_ne en
    split
    · push_cast; field_simp
    · simp
  simp only [h1]
  rw [Finset.sum_ite_eq' Finset.univ k0.1 (fun k => extend X k), if_pos (Finset.mem_univ _)]
  unfold extend
  rw [dif_pos k0.2]

theorem C78_real_fields_hermitian (q : Fld n ℝ) : Hermitian (r2c en q) := r2c_hermitian en q

theorem r2c_inj {x y : Fld n ℝ} (h : r2c en x = r2c en y) : x = y := by
  rw [← C78_forward_inverse en x, h, C78_forward_inverse en y]

/-! ## C79 -/

/-- Same value for a wave and its inverse when both are stored; `kSq` has this property because
it is the squared length of a shortest alias. -/
def Even (f : Half N → ℝ) : Prop :=
  ∀ (k : Grid N) (h : Stored k) (h' : Stored (-k)), f ⟨-k, h'⟩ = f ⟨k, h⟩

theorem r2c_dftKin {f : Half N → ℝ} (hf : Even f) (q : Fld n ℝ) (k : Half N) :
    r2c en (dftKin en f q) k = r2c en q k * (f k : ℂ) := by
  unfold dftKin
  rw [C78_inverse_forward]
  intro k h h'
  simp only [map_mul, r2c_hermitian en q k h h', hf k h h', Complex.conj_ofReal]

theorem r2c_smul (c : ℝ) (q : Fld n ℝ) (k : Half N) :
    r2c en (fun i => q i * c) k = r2c en q k * (c : ℂ) := by
  unfold r2c
  simp only [Complex.ofReal_mul]
  rw [mul_right_comm _ _ (c : ℂ), Finset.sum_mul _ _ (c : ℂ)]
  congr 1
  apply Finset.sum_congr rfl
  intro i _
  ring

theorem r2c_rich (x y : Fld n ℝ) (k : Half N) :
    r2c en (fun i => (4 * x i - y i) / 3) k = (4 * r2c en x k - r2c en y k) / 3 := by
  unfold r2c
  push_cast
  rw [← mul_assoc, ← sub_mul, mul_div_right_comm, Finset.mul_sum, ← Finset.sum_sub_distrib,
    Finset.sum_div]
  congr 1
  apply Finset.sum_congr rfl
  intro i _
  ring

theorem stepThread_coef (b : Arrays ℝ n (Half N)) (a a2 : ℝ) (ha : ∀ i, b.expW i = a)
    (ha2 : ∀ i, b.expW2 i = a2) (e1 : Even b.expKsq) (e2 : Even b.expKsq2) (q : Fld n ℝ)
    (k : Half N) :
    r2c en (stepThread (dftKin en) b q) k = r2c en q k *
      (((4 * (a2 * b.expKsq2 k * a * b.expKsq2 k * a2) - a * b.expKsq k * a) / 3 : ℝ) : ℂ) := by
  unfold stepThread
  simp only [ha, ha2]
  rw [r2c_rich, r2c_smul, r2c_dftKin en e2, r2c_smul, r2c_dftKin en e2, r2c_smul, r2c_smul,
    r2c_dftKin en e1, r2c_smul]
  push_cast
  ring

/-- **C79**: in a homogeneous field `w` a step of the thread model multiplies the coefficient of
every wave by exactly `exp(-ds (w + kuhn² kSq / 6))`, for every step size and every propagator. -/
theorem C79_thread_step_exact (w ds kuhn : ℝ) (ksq : Half N → ℝ) (hk : Even ksq) (q : Fld n ℝ)
    (k : Half N) :
    r2c en (stepThread (dftKin en) (threadArrays (fun _ => w) ds kuhn ksq) q) k =
      r2c en q k * (Real.exp (-ds * (w + kuhn ^ 2 * ksq k / 6)) : ℝ) := by
  have e1 : Even (threadArrays (n := n) (fun _ => w) ds kuhn ksq).expKsq := fun k h h' => by
    simp only [threadArrays]; rw [hk k h h']
  have e2 : Even (threadArrays (n := n) (fun _ => w) ds kuhn ksq).expKsq2 := fun k h h' => by
    simp only [threadArrays]; rw [hk k h h']
  rw [stepThread_coef en _ (Real.exp (-(1 / 2) * ds * w))
    (Real.exp (1 / 2 * (-(1 / 2) * ds * w))) (fun _ => rfl) (fun _ => rfl) e1 e2]
  simp only [threadArrays, ← Real.exp_add]
  congr 2
  have h1 : -(1 / 2) * ds * w + ksq k * (-1 * kuhn * kuhn / 6 * ds) + -(1 / 2) * ds * w =
      -ds * (w + kuhn ^ 2 * ksq k / 6) := by ring
  have h2 : 1 / 2 * (-(1 / 2) * ds * w) + 1 / 2 * (ksq k * (-1 * kuhn * kuhn / 6 * ds)) +
      -(1 / 2) * ds * w + 1 / 2 * (ksq k * (-1 * kuhn * kuhn / 6 * ds)) +
      1 / 2 * (-(1 / 2) * ds * w) = -ds * (w + kuhn ^ 2 * ksq k / 6) := by ring
  rw [h1, h2]
  ring

/-- **C79**: in a homogeneous field the slice with index `j` is the exact solution at contour
position `j ds`, for every initial condition. -/
theorem C79_thread_exact (w ds kuhn : ℝ) (ksq : Half N → ℝ) (hk : Even ksq) (h : Fld n ℝ)
    (k : Half N) : ∀ j : Nat,
    r2c en (slicesThread (dftKin en) (threadArrays (fun _ => w) ds kuhn ksq) h j) k =
      r2c en h k * (Real.exp (-(j * ds) * (w + kuhn ^ 2 * ksq k / 6)) : ℝ)
  | 0 => by simp [slicesThread]
  | j + 1 => by
    show r2c en (stepThread _ _ _) k = _
    rw [C79_thread_step_exact en w ds kuhn ksq hk, C79_thread_exact w ds kuhn ksq hk h k j,
      mul_assoc, ← Complex.ofReal_mul, ← Real.exp_add]
    congr 3
    push_cast
    ring

/-- **C79**, bead model: one bead and bond multiplies every coefficient by the exact weight. -/
theorem C79_bead_step_exact (w kuhn : ℝ) (ksq : Half N → ℝ) (hk : Even ksq) (q : Fld n ℝ)
    (k : Half N) :
    r2c en (stepBead (dftKin en) (beadArrays (fun _ => w) kuhn ksq) q) k =
      r2c en q k * (Real.exp (-w - kuhn ^ 2 * ksq k / 6) : ℝ) := by
  have e1 : Even (beadArrays (n := n) (fun _ => w) kuhn ksq).expKsq := fun k h h' => by
    simp only [beadArrays]; rw [hk k h h']
  unfold stepBead stepFieldBead
  rw [show (beadArrays (n := n) (N := N) (fun _ => w) kuhn ksq).expW =
    fun _ => Real.exp (-w) from rfl, r2c_smul, r2c_dftKin en e1]
  simp only [beadArrays]
  rw [mul_assoc, ← Complex.ofReal_mul, ← Real.exp_add]
  congr 3
  ring

/-- **C79**, bead model: two half bonds make one bond. -/
theorem C79_half_bonds (w kuhn : ℝ) (ksq : Half N → ℝ) (hk : Even ksq) (q : Fld n ℝ) :
    stepHalfBondBead (dftKin en) (beadArrays (fun _ => w) kuhn ksq)
      (stepHalfBondBead (dftKin en) (beadArrays (fun _ => w) kuhn ksq) q) =
    dftKin en (beadArrays (fun _ => w) kuhn ksq : Arrays ℝ n (Half N)).expKsq q := by
  have e1 : Even (beadArrays (n := n) (fun _ => w) kuhn ksq).expKsq := fun k h h' => by
    simp only [beadArrays]; rw [hk k h h']
  have e2 : Even (beadArrays (n := n) (fun _ => w) kuhn ksq).expKsq2 := fun k h h' => by
    simp only [beadArrays]; rw [hk k h h']
  unfold stepHalfBondBead
  apply r2c_inj en
  funext k
  rw [r2c_dftKin en e2, r2c_dftKin en e2, r2c_dftKin en e1]
  simp only [beadArrays]
  rw [mul_assoc, ← Complex.ofReal_mul, ← Real.exp_add]
  congr 3
  ring

/-! ## C53 and C54 for the solver of the code -/

/-- **C54** for the solver of the code: any mesh, fields, segment lengths and wave lengths. -/
theorem C54_dft (bead : Bool) (es : List Edge) (fuel : Nat) (P : Polymer)
    (hr : readTopology es fuel = some (.ok P)) (w : Nat → Fld n ℝ) (ns : Nat → Nat)
    (ds kuhn : Nat → ℝ) (ksq : Half N → ℝ)
    (hns : ∀ k, if bead then 3 ≤ ns k else ∃ m, 1 ≤ m ∧ ns k = 2 * m + 1) :
    let blk := fun k => realBlock bead (w k) (ns k) (ds k) (kuhn k) ksq
    ∃ st, solvePlan (dftKin en) bead blk es P.vertices P.plan (fun _ => none) = .ok st ∧
    ∀ p p' : Pid, p.1 < es.length → p'.1 < es.length →
      (queryQ bead blk es P.vertices st p).isSome ∧
      queryQ bead blk es P.vertices st p = queryQ bead blk es P.vertices st p' := by
  intro blk
  apply C54_Q_block_independent (fuel := fuel)
  refine ⟨hr, dft_selfAdjoint en, fun hb k _ => ?_, fun hb k _ => ?_⟩
  · have := hns k; rw [hb] at this; show ∃ m, 1 ≤ m ∧ ns k = 2 * m + 1; simpa using this
  · have := hns k; rw [hb] at this
    refine ⟨by show 3 ≤ ns k; simpa using this, fun i => ?_⟩
    subst hb
    simp only [blk, realBlock, if_true, beadArrays]
    exact mul_one_div_cancel (Real.exp_pos _).ne'

/-- **C53** for the solver of the code. -/
theorem C53_dft (bead : Bool) (es : List Edge) (hes : es ≠ []) (fuel : Nat) (P : Polymer)
    (hr : readTopology es fuel = some (.ok P)) (w : Nat → Fld n ℝ) (ns : Nat → Nat)
    (ds kuhn : Nat → ℝ) (ksq : Half N → ℝ)
    (hns : ∀ k, if bead then 3 ≤ ns k else ∃ m, 1 ≤ m ∧ ns k = 2 * m + 1) (phi phiTot total : ℝ)
    (hphi : phiTot ≠ 0) (htot : total ≠ 0) :
    let blk := fun k => realBlock bead (w k) (ns k) (ds k) (kuhn k) ksq
    ∃ st Q, polymerSolve (dftKin en) bead blk es P.vertices P.plan phiTot = .ok (st, Q) ∧
      (Q ≠ 0 → ∀ k, k < es.length → ∃ c, blockConc bead blk st phi Q total k = some c ∧
        (∑ i, c i) / (n : ℝ) = phi * phiTot * (size bead (blk k) / total)) := by
  intro blk
  have hP : PolyOk (dftKin en) bead blk es fuel P := by
    refine ⟨hr, dft_selfAdjoint en, fun hb k _ => ?_, fun hb k _ => ?_⟩
    · have := hns k; rw [hb] at this; show ∃ m, 1 ≤ m ∧ ns k = 2 * m + 1; simpa using this
    · have := hns k; rw [hb] at this
      refine ⟨by show 3 ≤ ns k; simpa using this, fun i => ?_⟩
      subst hb
      simp only [blk, realBlock, if_true, beadArrays]
      exact mul_one_div_cancel (Real.exp_pos _).ne'
  obtain ⟨st, Q, h⟩ := C53_solve_succeeds hP hes phiTot
  exact ⟨st, Q, h, fun hQ k hk => C53_block_conservation hP hes phi phiTot total Q st h
    (n_ne en) (by norm_num) hQ hphi htot k hk⟩

/-! ## Examples -/

/-- A one-dimensional mesh with four points; waves 0, 1, 2 are stored. -/
example : Stored (N := fun _ : Fin 1 => 4) (fun _ => 2) ∧
    ¬ Stored (N := fun _ : Fin 1 => 4) (fun _ => 3) := by
  constructor
  · show (2 : ZMod 4).val ≤ 4 / 2; decide
  · show ¬ (3 : ZMod 4).val ≤ 4 / 2; decide

example : Even (N := fun _ : Fin 1 => 4) (fun k => ((k.1 0).val : ℝ)) := by
  intro k h h'
  have : ∀ a : ZMod 4, a.val ≤ 4 / 2 → (-a).val ≤ 4 / 2 → (-a).val = a.val := by decide
  exact congrArg _ (this (k 0) h h')

example : Hermitian (N := fun _ : Fin 1 => 4) (fun k => if k.1 0 = 1 then ⟨1, 2⟩ else 3) := by
  intro k h h'
  have : ∀ a : ZMod 4, a.val ≤ 4 / 2 → (-a).val ≤ 4 / 2 → a ≠ 1 ∧ -a ≠ 1 := by decide
  have h2 := this (k 0) h h'
  simp only [Pi.neg_apply, if_neg h2.1, if_neg h2.2, map_ofNat]

end Verif.Solver
