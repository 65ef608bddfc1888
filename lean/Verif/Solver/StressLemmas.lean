import Verif.Solver.Deriv
import Verif.Solver.DftProps
import Verif.Solver.ShiftProps
import Verif.Solver.Stress
import Verif.Tac
import Mathlib.Analysis.SpecialFunctions.ExpDeriv

/-! Lemmas for `Verif.Solver.DerivProps`. -/

set_option autoImplicit false
set_option linter.unusedSectionVars false

namespace Verif.Solver

open Verif.Chem

section Beads

variable {n : Nat} {κ : Type} {kin : Kin ℝ n κ} {θ : ℝ}

/-- Additive in the field. -/
def AddKin (kin : Kin ℝ n κ) : Prop :=
  ∀ f (x y : Fld n ℝ), kin f (fun i => x i + y i) = fun i => kin f x i + kin f y i

theorem mulF_add (w x y : Fld n ℝ) :
    mulF w (fun i => x i + y i) = fun i => mulF w x i + mulF w y i := by
  funext i; simp only [mulF]; ring

/-- Derivative of `beads` with the first slice held fixed. -/
noncomputable def beadsD (kin : Kin ℝ n κ) (b : Arrays ℝ n κ) (w' : Fld n ℝ) (f' f2' : κ → ℝ) (e : Bool) :
    Nat → Fld n ℝ → Fld n ℝ
  | 0, x => if e then mulF w' x
      else fun i => mulF w' (kin b.expKsq2 x) i + mulF b.expW (kin f2' x) i
  | j + 1, x => fun i => mulF w' (kin b.expKsq (beads kin b e x j)) i +
      mulF b.expW (fun i => kin f' (beads kin b e x j) i +
        kin b.expKsq (beadsD kin b w' f' f2' e j x) i) i

variable {b : ℝ → Arrays ℝ n κ} {w' : Fld n ℝ} {f' f2' : κ → ℝ}

theorem opD_beads (hk : DerivKin kin) (ha : AddKin kin)
    (hw : HasD (fun t => (b t).expW) w' θ)
    (hf : ∀ k, HasDerivAt (fun t => (b t).expKsq k) (f' k) θ)
    (hf2 : ∀ k, HasDerivAt (fun t => (b t).expKsq2 k) (f2' k) θ) (e : Bool) :
    ∀ j, OpD (fun t x => beads kin (b t) e x j) (beadsD kin (b θ) w' f' f2' e j) θ
  | 0 => by
    cases e with
    | true => exact OpD.mul hw
    | false =>
      exact OpD.comp (OpD.ofKin hk hf2) (OpD.mul hw) (fun x y => mulF_add _ x y)
  | j + 1 => by
    have h1 := OpD.comp (opD_beads hk ha hw hf hf2 e j) (OpD.ofKin hk hf) (fun x y => ha _ x y)
    exact OpD.comp h1 (OpD.mul hw) (fun x y => mulF_add _ x y)

/-- Derivative of the last slice. -/
noncomputable def lastD (kin : Kin ℝ n κ) (b : Arrays ℝ n κ) (w' : Fld n ℝ) (f' f2' : κ → ℝ) (e e' : Bool)
    (N : Nat) (x : Fld n ℝ) : Fld n ℝ :=
  if e' then beadsD kin b w' f' f2' e N x
  else fun i => kin f2' (beads kin b e x N) i + kin b.expKsq2 (beadsD kin b w' f' f2' e N x) i

theorem opD_last (hk : DerivKin kin) (ha : AddKin kin)
    (hw : HasD (fun t => (b t).expW) w' θ)
    (hf : ∀ k, HasDerivAt (fun t => (b t).expKsq k) (f' k) θ)
    (hf2 : ∀ k, HasDerivAt (fun t => (b t).expKsq2 k) (f2' k) θ) (e e' : Bool) (ns : Nat)
    (hns : 3 ≤ ns) :
    OpD (fun t x => slicesBead kin (b t) ns e e' x (ns - 1))
      (lastD kin (b θ) w' f' f2' e e' (ns - 3)) θ := by
  have h1 := opD_beads hk ha hw hf hf2 e (ns - 3)
  simp only [slicesBead_last (h1 := hns)]
  cases e' with
  | true => exact h1
  | false => exact OpD.comp h1 (OpD.ofKin hk hf2) (fun x y => ha _ x y)

theorem beads_succ_left (b : Arrays ℝ n κ) (z : Fld n ℝ) : ∀ k,
    beads kin b true (kin b.expKsq (mulF b.expW z)) k = beads kin b true z (k + 1)
  | 0 => rfl
  | k + 1 => by
    show stepBead kin b (beads kin b true _ k) = stepBead kin b (beads kin b true z (k + 1))
    rw [beads_succ_left b z k]

theorem beads_half (b : Arrays ℝ n κ) (z : Fld n ℝ) : ∀ k,
    beads kin b true (kin b.expKsq2 z) k = beads kin b false z k
  | 0 => rfl
  | k + 1 => by
    show stepBead kin b (beads kin b true _ k) = stepBead kin b (beads kin b false z k)
    rw [beads_half b z k]

variable {a : Arrays ℝ n κ}

theorem winv_cancel (hw : ∀ i, a.expW i * a.expWInv i = 1) (q : Fld n ℝ) :
    mulF a.expWInv (mulF a.expW q) = q := by
  funext i
  show q i * a.expW i * a.expWInv i = q i
  rw [mul_assoc, hw, mul_one]

/-- Contributions of the beads and of the bonds to the derivative. -/
theorem dot_beadsD (hadj : SelfAdjoint kin) (hw : ∀ i, a.expW i * a.expWInv i = 1) (e : Bool)
    (x : Fld n ℝ) : ∀ (j : Nat) (z : Fld n ℝ),
    dot (beadsD kin a w' f' f2' e j x) z =
      (if e then 0 else dot (kin f2' x) (beads kin a true z j)) +
      (∑ r : Fin (j + 1), dot (mulF w' (mulF a.expWInv (beads kin a e x r)))
        (mulF a.expWInv (beads kin a true z (j - r)))) +
      ∑ r : Fin j, dot (kin f' (beads kin a e x r)) (beads kin a true z (j - 1 - r))
  | 0, z => by
    have key : ∀ y : Fld n ℝ, mulF a.expWInv (stepFieldBead a y) = y := winv_cancel hw
    cases e with
    | true =>
      have : mulF a.expWInv (beads kin a true x 0) = x := key x
      have h2 : mulF a.expWInv (beads kin a true z 0) = z := key z
      simp [beadsD, this, h2]
    | false =>
      have : mulF a.expWInv (beads kin a false x 0) = kin a.expKsq2 x := key _
      have h2 : mulF a.expWInv (beads kin a true z 0) = z := key z
      simp only [beadsD, Bool.false_eq_true, if_false]
      rw [Fin.sum_univ_castSucc]
      simp only [Finset.univ_eq_empty, Finset.sum_empty, Fin.val_last, Nat.sub_self, this, h2,
        add_zero, zero_add]
      rw [dot_add_left, dot_mulF a.expW, add_comm]
      rfl
  | j + 1, z => by
    have key : ∀ y : Fld n ℝ, mulF a.expWInv (stepFieldBead a y) = y := winv_cancel hw
    have h2 : mulF a.expWInv (beads kin a true z 0) = z := key z
    have h3 : mulF a.expWInv (beads kin a e x (j + 1)) = kin a.expKsq (beads kin a e x j) := key _
    have ih := dot_beadsD hadj hw e x j (kin a.expKsq (mulF a.expW z))
    simp only [beads_succ_left] at ih
    rw [Fin.sum_univ_castSucc (n := j), Fin.sum_univ_castSucc (n := j + 1)]
    simp only [Fin.val_castSucc, Fin.val_last]
    simp only [beadsD]
    rw [dot_add_left, dot_mulF a.expW, dot_add_left, hadj a.expKsq, ih, h3, Nat.sub_self, h2]
    have e1 : ∀ r : Fin (j + 1), j + 1 - (r : Nat) = j - r + 1 := fun r => by omega
    have e2 : ∀ r : Fin j, j + 1 - 1 - (r : Nat) = j - 1 - r + 1 := fun r => by omega
    have e3 : j + 1 - 1 - j = 0 := by omega
    simp only [e1, e2, e3]
    have e4 : beads kin a true z 0 = mulF a.expW z := rfl
    rw [e4]
    ring

/-- Derivative of the whole block, with the first slices of both propagators. -/
theorem dot_lastD (hadj : SelfAdjoint kin) (hw : ∀ i, a.expW i * a.expWInv i = 1) (e e' : Bool)
    (x y : Fld n ℝ) (M : Nat) :
    dot (lastD kin a w' f' f2' e e' M x) y =
      (if e then 0 else dot (kin f2' x) (beads kin a e' y M)) +
      (∑ r : Fin (M + 1), dot (mulF w' (mulF a.expWInv (beads kin a e x r)))
        (mulF a.expWInv (beads kin a e' y (M - r)))) +
      (∑ r : Fin M, dot (kin f' (beads kin a e x r)) (beads kin a e' y (M - 1 - r))) +
      (if e' then 0 else dot (kin f2' (beads kin a e x M)) y) := by
  cases e' with
  | true =>
    simp only [lastD, if_true, add_zero]
    exact dot_beadsD hadj hw e x M y
  | false =>
    simp only [lastD, Bool.false_eq_true, if_false]
    rw [dot_add_left, hadj a.expKsq2, dot_beadsD hadj hw e x M]
    simp only [beads_half]
    ring

end Beads

/-! ### The Fourier step -/

section Dft

variable {m : Nat} {N : Fin (m + 1) → Nat} [∀ d, NeZero (N d)] {n : Nat} (en : Fin n ≃ Grid N)

theorem dft_add : AddKin (dftKin en) := by
  intro f x y
  funext i
  simp only [dftKin_eq, add_mul, Finset.sum_add_distrib]

theorem dft_deriv : DerivKin (dftKin en) := by
  intro f f' x x' θ hf hx i
  simp only [dftKin_eq]
  have he : ∀ k : Grid N, HasDerivAt (fun t => extR (f t) k) (extR f' k) θ := by
    intro k
    unfold extR
    split
    · exact hf _
    · exact hf _
  have h1 : ∀ j, HasDerivAt (fun t => (1 / (n : ℝ)) * ∑ k, extR (f t) k *
      (wave k (en i - en j)).re) ((1 / n) * ∑ k, extR f' k * (wave k (en i - en j)).re) θ :=
    fun j => (HasDerivAt.fun_sum (fun k _ => (he k).mul_const _)).const_mul _
  refine (HasDerivAt.fun_sum (fun j _ => (hx j).fun_mul (h1 j))).congr_deriv ?_
  rw [← Finset.sum_add_distrib]
  exact Finset.sum_congr rfl (fun j _ => by ring)

/-- Real part of the product of two coefficients. -/
noncomputable def cdot (x y : Fld n ℝ) (k : Grid N) : ℝ :=
  (coef en y k).re * (coef en x k).re + (coef en y k).im * (coef en x k).im

theorem cdot_neg (x y : Fld n ℝ) (k : Grid N) : cdot en x y (-k) = cdot en x y k := by
  unfold cdot
  rw [coef_neg, coef_neg]
  simp

/-- Parseval's identity with a multiplier, sum over the full mesh. -/
theorem parseval_full (f : Half N → ℝ) (x y : Fld n ℝ) :
    dot (dftKin en f x) y = n * ∑ k : Grid N, extR f k * cdot en x y k := by
  have hn := n_ne en
  have hc : ∀ k : Grid N, (coef en x k * (starRingEnd ℂ) (coef en y k)).re = cdot en x y k := by
    intro k
    unfold cdot
    simp only [Complex.mul_re, Complex.conj_re, Complex.conj_im]
    ring
  have h1 : ∀ k : Grid N, (coef en x k * (starRingEnd ℂ) (coef en y k)).re =
      ∑ i, ∑ j, (1 / n) * (1 / n) * (x i * y j * (wave k (en j - en i)).re) := by
    intro k
    unfold coef
    simp only [map_mul, map_sum, Complex.conj_ofReal, Complex.conj_conj]
    rw [mul_mul_mul_comm, Finset.sum_mul_sum, ← Complex.ofReal_mul, Complex.re_mul_ofReal,
      Complex.re_sum, Finset.sum_mul]
    apply Finset.sum_congr rfl
    intro i _
    rw [Complex.re_sum, Finset.sum_mul]
    apply Finset.sum_congr rfl
    intro j _
    rw [wave_sub]
    have : (x i : ℂ) * (starRingEnd ℂ) (wave k (en i)) * ((y j : ℂ) * wave k (en j)) =
        ((x i * y j : ℝ) : ℂ) * (wave k (en j) * (starRingEnd ℂ) (wave k (en i))) := by
      push_cast; ring
    rw [this, Complex.re_ofReal_mul]
    ring
  simp only [← hc, h1]
  unfold dot
  simp only [dftKin_eq, Finset.sum_mul, Finset.mul_sum]
  rw [Finset.sum_comm]
  conv_rhs => rw [Finset.sum_comm]
  apply Finset.sum_congr rfl
  intro i _
  conv_rhs => rw [Finset.sum_comm]
  apply Finset.sum_congr rfl
  intro j _
  apply Finset.sum_congr rfl
  intro k _
  field_simp

/-- The sum over the full mesh in terms of the stored waves. -/
theorem sum_half (F : Grid N → ℝ) (f : Half N → ℝ) (hF : ∀ k, F (-k) = F k) :
    ∑ k : Grid N, extR f k * F k = ∑ k : Half N, trueDKSq f k * F k.1 := by
  classical
  have h1 : ∑ k : Half N, trueDKSq f k * F k.1 = ∑ k : Half N, f k * F k.1 +
      ∑ k : Half N, if Stored (-k.1) then 0 else f k * F k.1 := by
    rw [← Finset.sum_add_distrib]
    apply Finset.sum_congr rfl
    intro k _
    unfold trueDKSq
    split <;> ring
  have h2 : ∑ k : Half N, (if Stored (-k.1) then 0 else f k * F k.1) =
      ∑ k : Grid N, if Stored (-k) then 0 else extR f k * F k := by
    rw [← Finset.sum_filter_add_sum_filter_not Finset.univ (fun k : Grid N => Stored k),
      Finset.sum_subtype (p := Stored) _ (by simp),
      Finset.sum_eq_zero (s := Finset.univ.filter (fun k : Grid N => ¬ Stored k)), add_zero]
    · apply Finset.sum_congr rfl
      intro k _
      rw [extR, dif_pos k.2]
    · intro k hk
      rw [if_pos (stored_neg (by simpa using hk))]
  rw [h1, h2, ← Finset.sum_filter_add_sum_filter_not Finset.univ (fun k : Grid N => Stored k)]
  congr 1
  · rw [Finset.sum_subtype (p := Stored) _ (by simp)]
    apply Finset.sum_congr rfl
    intro k _
    rw [extR, dif_pos k.2]
  · rw [Finset.sum_filter, ← Equiv.sum_comp (Equiv.neg (Grid N))]
    apply Finset.sum_congr rfl
    intro k _
    simp only [Equiv.neg_apply, ite_not]
    split
    · rfl
    · rename_i h
      have hk : Stored k := by simpa using stored_neg h
      rw [hF]
      congr 1
      unfold extR
      rw [dif_neg h, dif_pos hk]
      congr 2
      simp

/-- Parseval's identity for the sum over waves of the code. -/
theorem waveSum_true (f g : Half N → ℝ) (x y : Fld n ℝ) :
    dot (dftKin en (fun k => g k * f k) x) y =
      n * waveSum en (fun k => trueDKSq g k * f k) x y := by
  rw [parseval_full, sum_half _ _ (cdot_neg en x y)]
  congr 1
  unfold waveSum
  apply Finset.sum_congr rfl
  intro k _
  have : trueDKSq (fun k => g k * f k) k = trueDKSq g k * f k := by
    unfold trueDKSq; split <;> ring
  rw [this]
  unfold cdot
  show trueDKSq g k * f k * ((r2c en y k).re * (r2c en x k).re + (r2c en y k).im * (r2c en x k).im)
    = _
  ring

theorem waveSum_mul (c : ℝ) (g : Half N → ℝ) (x y : Fld n ℝ) :
    waveSum en (fun k => g k * c) x y = waveSum en g x y * c := by
  unfold waveSum
  rw [Finset.sum_mul]
  exact Finset.sum_congr rfl (fun k _ => by ring)

/-- Derivative of the block as computed by the code. -/
theorem stress_deriv (a : Arrays ℝ n (Half N)) (ns : Nat) (hns : 3 ≤ ns) (e e' : Bool)
    (kuhn pre : ℝ) (dk : Half N → ℝ) (x y : Fld n ℝ)
    (hw : ∀ i, a.expW i * a.expWInv i = 1) :
    stressBead en a ns e e' kuhn (trueDKSq dk) pre
      (slicesBead (dftKin en) a ns e e' x) (slicesBead (dftKin en) a ns e' e y) =
    -pre * (dot (lastD (dftKin en) a (fun _ => 0)
      (fun k => dk k * (-1 * kuhn * kuhn / 6) * a.expKsq k)
      (fun k => 1 / 2 * (dk k * (-1 * kuhn * kuhn / 6)) * a.expKsq2 k) e e' (ns - 3) x) y / n) := by
  have hn := n_ne en
  obtain ⟨M, rfl⟩ : ∃ M, ns = M + 3 := ⟨ns - 3, by omega⟩
  rw [dot_lastD (dft_selfAdjoint en) hw]
  have z : ∀ u v : Fld n ℝ, dot (mulF (fun _ => (0 : ℝ)) u) v = 0 := by
    intro u v; simp [dot, mulF]
  simp only [z, Finset.sum_const_zero, add_zero]
  have hf : ∀ u v : Fld n ℝ, dot (dftKin en
      (fun k => dk k * (-1 * kuhn * kuhn / 6) * a.expKsq k) u) v =
      n * (waveSum en (fun k => trueDKSq dk k * a.expKsq k) u v * (-1 * kuhn * kuhn / 6)) := by
    intro u v
    rw [← waveSum_mul]
    have := waveSum_true en (fun k => a.expKsq k * (-1 * kuhn * kuhn / 6)) dk u v
    refine Eq.trans ?_ (this.trans ?_)
    · congr 3; funext k; ring
    · congr 2; funext k; ring
  have hf2 : ∀ u v : Fld n ℝ, dot (dftKin en
      (fun k => 1 / 2 * (dk k * (-1 * kuhn * kuhn / 6)) * a.expKsq2 k) u) v =
      n * (waveSum en (fun k => trueDKSq dk k * a.expKsq2 k) u v *
        (1 / 2 * (-1 * kuhn * kuhn / 6))) := by
    intro u v
    rw [← waveSum_mul]
    have := waveSum_true en (fun k => a.expKsq2 k * (1 / 2 * (-1 * kuhn * kuhn / 6))) dk u v
    refine Eq.trans ?_ (this.trans ?_)
    · congr 3; funext k; ring
    · congr 2; funext k; ring
  simp only [hf, hf2, Nat.add_sub_cancel]
  unfold stressBead
  simp only [accum_eq, Nat.add_sub_cancel, slicesBead_zero]
  have s1 : ∀ (c c' : Bool) (u : Fld n ℝ), slicesBead (dftKin en) a (M + 3) c c' u (M + 3 - 2) =
      beads (dftKin en) a c u M := by
    intro c c' u
    rw [show M + 3 - 2 = M + 1 by omega]
    exact slicesBead_mid a _ c c' u M (by omega)
  have s2 : ∀ r : Fin M, slicesBead (dftKin en) a (M + 3) e e' x ((r : Nat) + 1) =
      beads (dftKin en) a e x r := fun r => slicesBead_mid a _ e e' x r (by omega)
  have s3 : ∀ r : Fin M, slicesBead (dftKin en) a (M + 3) e' e y (M + 3 - 2 - ((r : Nat) + 1)) =
      beads (dftKin en) a e' y (M - 1 - r) := fun r => by
    rw [show M + 3 - 2 - ((r : Nat) + 1) = (M - 1 - r) + 1 by omega]
    exact slicesBead_mid a _ e' e y _ (by omega)
  simp only [s1, s2, s3]
  rw [Finset.sum_neg_distrib, ← Finset.sum_mul, ← Finset.mul_sum, ← Finset.sum_mul]
  generalize ∑ r : Fin M, waveSum en (fun k => trueDKSq dk k * a.expKsq k)
    (beads (dftKin en) a e x r) (beads (dftKin en) a e' y (M - 1 - r)) = S
  generalize waveSum en (fun k => trueDKSq dk k * a.expKsq2 k) x (beads (dftKin en) a e' y M) = S1
  generalize waveSum en (fun k => trueDKSq dk k * a.expKsq2 k) (beads (dftKin en) a e x M) y = S2
  cases e <;> cases e' <;> simp only [if_true, if_false, Bool.false_eq_true] <;> field_simp <;>
    ring

end Dft

end Verif.Solver
