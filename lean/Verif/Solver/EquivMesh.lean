import Verif.Solver.EquivLemmas
import Verif.Basis.StarNormProps

/-!
# Lemmas for C113: symmetry operations on the mesh
-/

set_option autoImplicit false
set_option linter.unusedSectionVars false

namespace Verif.Solver

open Verif.Crystal (Sym)
open Verif.Stars (GroupOn Compat)

variable {m : Nat} {N : Fin (m + 1) → Nat} [∀ d, NeZero (N d)] {n : Nat}

/-- Integers as residues. -/
def res (N : Fin (m + 1) → Nat) (u : Fin (m + 1) → ℤ) : Grid N := fun d => (u d : ZMod (N d))

/-- Residues as integers. -/
def rep (k : Grid N) : Fin (m + 1) → ℤ := fun d => ((k d).val : ℤ)

theorem res_rep (k : Grid N) : res N (rep k) = k := by
  funext d; simp [res, rep]

theorem res_sub (u v : Fin (m + 1) → ℤ) : res N u - res N v = res N (fun d => u d - v d) := by
  funext d; simp [res]

theorem res_eq {u v : Fin (m + 1) → ℤ} : res N u = res N v ↔ ∀ d, (N d : ℤ) ∣ v d - u d := by
  rw [funext_iff]
  exact forall_congr' fun d => ZMod.intCast_eq_intCast_iff_dvd_sub _ _ _

theorem wave_int (u x : Fin (m + 1) → ℤ) :
    wave (res N u) (res N x) = Complex.exp (2 * Real.pi * Complex.I * ∑ d, ((u d * x d / N d : ℚ) : ℂ)) := by
  unfold wave res
  rw [Finset.mul_sum, Complex.exp_sum]
  refine Finset.prod_congr rfl fun d _ => ?_
  rw [← Int.cast_mul, ZMod.stdAddChar_coe]
  congr 1
  push_cast
  ring

/-- `z` is the image of the mesh point `x`: in lattice coordinates `R x + t`. -/
def IsImage (N : Fin (m + 1) → Nat) (A : Sym (m + 1)) (x z : Fin (m + 1) → ℤ) : Prop :=
  ∀ d, A.t d + ∑ e, (A.R d e : ℚ) * (x e / N e) = (z d : ℚ) / N d

/-- The permutation of grid points `σ` is the operation `A`. -/
def OnGrid (en : Fin n ≃ Grid N) (A : Sym (m + 1)) (σ : Equiv.Perm (Fin n)) : Prop :=
  ∀ i, ∃ z, IsImage N A (rep (en i)) z ∧ en (σ i) = res N z

variable {l : List (Sym (m + 1))} {A : Sym (m + 1)}

theorem vecMul_res (hA : Compat (fun d => (N d : ℤ)) A) {u v : Fin (m + 1) → ℤ} (h : res N u = res N v) :
    res N (Sym.vecMul u A) = res N (Sym.vecMul v A) := by
  rw [res_eq] at h ⊢
  intro e
  rw [Stars.vecMul_apply, Stars.vecMul_apply, ← Finset.sum_sub_distrib]
  refine Finset.dvd_sum fun d _ => ?_
  obtain ⟨q, hq⟩ := h d
  obtain ⟨r, hr⟩ := hA.rot d e
  refine ⟨q * r, ?_⟩
  rw [← sub_mul, hq]
  linear_combination q * hr

/-- Action on waves. -/
def dualAct (A : Sym (m + 1)) (k : Grid N) : Grid N := res N (Sym.vecMul (rep k) A)

theorem dualAct_res (hA : Compat (fun d => (N d : ℤ)) A) (u : Fin (m + 1) → ℤ) :
    dualAct A (res N u) = res N (Sym.vecMul u A) := vecMul_res hA (res_rep _)

theorem dualAct_bij (G : GroupOn (fun d => (N d : ℤ)) l) (hA : A ∈ l) : Function.Bijective (dualAct (N := N) A) := by
  obtain ⟨B, hB, h1, h2⟩ := G.inv A hA
  refine Function.bijective_iff_has_inverse.mpr ⟨dualAct B, fun k => ?_, fun k => ?_⟩
  · show dualAct B (res N (Sym.vecMul (rep k) A)) = k
    rw [dualAct_res (G.compat B hB), ← Stars.vecMul_mul, h1, Stars.vecMul_one, res_rep]
  · show dualAct A (res N (Sym.vecMul (rep k) B)) = k
    rw [dualAct_res (G.compat A hA), ← Stars.vecMul_mul, h2, Stars.vecMul_one, res_rep]

/-- Phase differences of images. -/
theorem dual_wave {x y z z' : Fin (m + 1) → ℤ} (h : IsImage N A x z) (h' : IsImage N A y z') (k : Grid N) :
    wave k (res N z - res N z') = wave (dualAct A k) (res N x - res N y) := by
  rw [res_sub, res_sub]
  conv_lhs => rw [← res_rep k]
  unfold dualAct
  rw [wave_int, wave_int]
  congr 2
  rw [← Rat.cast_sum, ← Rat.cast_sum]
  congr 1
  have hd : ∀ d, ((z d - z' d : ℤ) : ℚ) / N d = ∑ e, (A.R d e : ℚ) * ((x e - y e : ℤ) / N e) := by
    intro d
    push_cast
    rw [sub_div, ← h d, ← h' d, add_sub_add_left_eq_sub, ← Finset.sum_sub_distrib]
    exact Finset.sum_congr rfl fun e _ => by ring
  calc ∑ d, (rep k d : ℚ) * ((z d - z' d : ℤ) : ℚ) / N d
      = ∑ d, ∑ e, (rep k d : ℚ) * ((A.R d e : ℚ) * ((x e - y e : ℤ) / N e)) := by
        refine Finset.sum_congr rfl fun d _ => ?_
        rw [mul_div_assoc, hd, Finset.mul_sum]
    _ = ∑ e, ((Sym.vecMul (rep k) A e : ℤ) : ℚ) * ((x e - y e : ℤ) : ℚ) / N e := by
        rw [Finset.sum_comm]
        refine Finset.sum_congr rfl fun e _ => ?_
        rw [Stars.vecMul_apply]
        push_cast
        rw [Finset.sum_mul, Finset.sum_div]
        exact Finset.sum_congr rfl fun d _ => by ring

/-- Every mesh point has an image on the mesh. -/
theorem image_exists (hA : Compat (fun d => (N d : ℤ)) A) (x : Fin (m + 1) → ℤ) : ∃ z, IsImage N A x z := by
  choose t ht using hA.trans
  choose s hs using hA.rot
  refine ⟨fun d => t d + ∑ e, s d e * x e, fun d => ?_⟩
  have hN : ∀ d, (N d : ℚ) ≠ 0 := fun d => by exact_mod_cast NeZero.ne (N d)
  rw [eq_div_iff (hN d), add_mul, Finset.sum_mul]
  push_cast
  have h1 := ht d
  simp only [Int.cast_natCast] at h1
  rw [← h1, mul_comm (A.t d)]
  congr 1
  refine Finset.sum_congr rfl fun e _ => ?_
  have h2 : (N d : ℚ) * A.R d e = N e * s d e := by exact_mod_cast hs d e
  have := hN e
  field_simp
  linear_combination (x e : ℚ) * h2

/-- The operations of the group are permutations of the grid points. -/
theorem onGrid_exists (G : GroupOn (fun d => (N d : ℤ)) l) (hA : A ∈ l) (en : Fin n ≃ Grid N) :
    ∃ σ : Equiv.Perm (Fin n), OnGrid en A σ := by
  choose z hz using fun i => image_exists (G.compat A hA) (rep (en i))
  have hinj : Function.Injective fun i => en.symm (res N (z i)) := by
    intro i j h
    have h0 : res N (z i) - res N (z j) = 0 := by
      rw [sub_eq_zero]; exact en.symm.injective h
    have h1 : ∀ k : Grid N, wave k (en i - en j) = 1 := by
      intro k
      obtain ⟨k', rfl⟩ := (dualAct_bij G hA).2 k
      have := dual_wave (hz i) (hz j) k'
      rw [res_rep, res_rep, h0] at this
      rw [← this]
      simp [wave]
    have h2 := sum_wave (en i - en j)
    simp only [h1] at h2
    by_contra hne
    rw [if_neg (by rw [sub_eq_zero]; exact fun e => hne (en.injective e))] at h2
    have h3 : ∀ d, ((N d : ℕ) : ℂ) ≠ 0 := fun d => by exact_mod_cast NeZero.ne (N d)
    simp at h2
    exact Finset.prod_ne_zero_iff.mpr (fun d _ => h3 d) h2
  refine ⟨Equiv.ofBijective _ (Finite.injective_iff_bijective.mp hinj), fun i => ⟨z i, hz i, ?_⟩⟩
  simp

/-- `ksq` is the squared length of a shortest alias of the wave, `kn` the squared length of a wave. -/
def Shortest (kn : (Fin (m + 1) → ℤ) → ℝ) (ksq : Half N → ℝ) : Prop :=
  ∀ k : Half N, IsLeast {x | ∃ v, res N v = k.1 ∧ x = kn v} (ksq k)

variable {kn : (Fin (m + 1) → ℤ) → ℝ} {ksq : Half N → ℝ}

theorem extR_least (hs : Shortest kn ksq) (hneg : ∀ u, kn (fun d => - u d) = kn u) (k : Grid N) :
    IsLeast {x | ∃ v, res N v = k ∧ x = kn v} (extR ksq k) := by
  unfold extR
  split
  · rename_i h; exact hs ⟨k, h⟩
  · rename_i h
    have h1 := hs ⟨-k, stored_neg h⟩
    convert h1 using 1
    ext x
    constructor
    · rintro ⟨v, hv, rfl⟩
      refine ⟨fun d => - v d, ?_, (hneg v).symm⟩
      show _ = -k
      rw [← hv]; funext d; simp [res]
    · rintro ⟨v, hv, rfl⟩
      refine ⟨fun d => - v d, ?_, (hneg v).symm⟩
      have : k = - res N v := by rw [hv]; simp
      rw [this]; funext d; simp [res]

theorem extR_dual (G : GroupOn (fun d => (N d : ℤ)) l) (hA : A ∈ l) (hkn : ∀ u, kn (Sym.vecMul u A) = kn u)
    (hneg : ∀ u, kn (fun d => - u d) = kn u) (hs : Shortest kn ksq) (k : Grid N) :
    extR ksq (dualAct A k) = extR ksq k := by
  refine (extR_least hs hneg (dualAct A k)).unique ?_
  have h := extR_least hs hneg k
  obtain ⟨B, hB, h1, h2⟩ := G.inv A hA
  suffices he : {x | ∃ v, res N v = dualAct A k ∧ x = kn v} = {x | ∃ v, res N v = k ∧ x = kn v} by
    rw [he]; exact h
  ext x
  constructor
  · rintro ⟨v, hv, rfl⟩
    refine ⟨Sym.vecMul v B, ?_, ?_⟩
    · have := vecMul_res (G.compat B hB) hv
      rw [this, ← Stars.vecMul_mul, h1, Stars.vecMul_one, res_rep]
    · rw [← hkn (Sym.vecMul v B), ← Stars.vecMul_mul, h2, Stars.vecMul_one]
  · rintro ⟨v, hv, rfl⟩
    refine ⟨Sym.vecMul v A, ?_, (hkn v).symm⟩
    rw [← hv, dualAct_res (G.compat A hA)]

theorem extR_comp (g : ℝ → ℝ) (k : Grid N) : extR (fun k => g (ksq k)) k = g (extR ksq k) := by
  unfold extR; split <;> rfl

/-- The Fourier step commutes with the operations of the group. -/
theorem commutes_group (G : GroupOn (fun d => (N d : ℤ)) l) (hA : A ∈ l) (hkn : ∀ u, kn (Sym.vecMul u A) = kn u)
    (hneg : ∀ u, kn (fun d => - u d) = kn u) (hs : Shortest kn ksq) (en : Fin n ≃ Grid N) {σ : Equiv.Perm (Fin n)}
    (hσ : OnGrid en A σ) (g : ℝ → ℝ) : Commutes (dftKin en) σ (fun k => g (ksq k)) := by
  intro q
  funext i
  unfold tr
  rw [dftKin_eq, dftKin_eq, ← Equiv.sum_comp σ (fun j => q j * _)]
  refine Finset.sum_congr rfl fun j _ => ?_
  congr 2
  obtain ⟨z, hz, ez⟩ := hσ i
  obtain ⟨z', hz', ez'⟩ := hσ j
  have h1 : ∀ k, wave k (en (σ i) - en (σ j)) = wave (dualAct A k) (en i - en j) := by
    intro k
    rw [ez, ez', dual_wave hz hz', res_rep, res_rep]
  simp only [h1, extR_comp]
  rw [← Equiv.sum_comp (Equiv.ofBijective _ (dualAct_bij G hA))]
  refine Finset.sum_congr rfl fun k _ => ?_
  simp only [Equiv.ofBijective_apply]
  rw [extR_dual G hA hkn hneg hs]

/-- The Fourier step commutes with translations by mesh vectors. -/
theorem commutes_translation (en : Fin n ≃ Grid N) {σ : Equiv.Perm (Fin n)} (t : Grid N) (hσ : ∀ i, en (σ i) = en i + t)
    (f : Half N → ℝ) : Commutes (dftKin en) σ f := by
  intro q
  funext i
  unfold tr
  rw [dftKin_eq, dftKin_eq, ← Equiv.sum_comp σ (fun j => q j * _)]
  refine Finset.sum_congr rfl fun j _ => ?_
  rw [hσ, hσ, add_sub_add_right_eq_sub]

end Verif.Solver
