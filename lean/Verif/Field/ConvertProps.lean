import Verif.Field.Convert
import Verif.Tac
import Mathlib.LinearAlgebra.Matrix.NonsingularInverse
import Mathlib.Algebra.Order.Ring.Rat

/-!
Property C62: conversion of monomer fields to components and back.
-/

set_option autoImplicit false
set_option linter.unusedSectionVars false

namespace Verif.Field.Conv

open Verif

variable {K : Type} [Field K] [LinearOrder K] [IsStrictOrderedRing K]

/-- Fields of the right number and sizes. -/
structure Fits (n mesh : Nat) (f : List (List K)) : Prop where
  count : f.length = n
  size : ∀ g ∈ f, g.length = mesh

/-- Rows of the matrix are orthogonal with squared norm `N`. -/
def Orthogonal (n : Nat) (b : Nat → Nat → K) (N : K) : Prop :=
  ∀ i j : Fin n, ∑ k : Fin n, b i k * b j k = if i = j then N else 0

theorem headD_length {n mesh : Nat} {f : List (List K)} (h : Fits n mesh f) (hn : 1 < n) :
    (f.headD []).length = mesh := by
  cases f with
  | nil => have := h.count; simp at this; omega
  | cons g f => exact h.size g (by simp)

theorem sizesOk_of {n mesh : Nat} {f g : List (List K)} (hn : 1 < n) (hf : Fits n mesh f)
    (hg : Fits n mesh g) : sizesOk n f g = true := by
  unfold sizesOk
  rw [headD_length hf hn]
  simp [hn, hf.count, hg.count]
  exact ⟨fun x hx => hf.size x hx, fun x hx => hg.size x hx⟩

theorem val_map (n m : Nat) (F : Nat → Nat → K) (i k : Nat) (hi : i < n) (hk : k < m) :
    val ((List.range n).map fun i => (List.range m).map fun k => F i k) i k = F i k := by
  simp [val, List.getD, hi, hk]

theorem fits_map (n m : Nat) (F : Nat → Nat → K) :
    Fits n m ((List.range n).map fun i => (List.range m).map fun k => F i k) := by
  constructor
  · simp
  · intro g hg
    simp at hg
    obtain ⟨a, -, rfl⟩ := hg
    simp

theorem map_val {n m : Nat} {f : List (List K)} (h : Fits n m f) :
    ((List.range n).map fun i => (List.range m).map fun k => val f i k) = f := by
  apply List.ext_getElem
  · simp [h.count]
  · intro i h1 h2
    have hl := h.size f[i] (List.getElem_mem h2)
    apply List.ext_getElem
    · simp [hl]
    · intro k h3 h4
      simp [val, List.getD, h2, h4]

/-- Rows orthogonal implies columns orthogonal. -/
theorem Orthogonal.columns {n : Nat} {b : Nat → Nat → K} {N : K} (h : Orthogonal n b N)
    (hN : N ≠ 0) : Orthogonal n (fun i j => b j i) N := by
  have h1 : (Matrix.of fun i j : Fin n => b i j) *
      (N⁻¹ • (Matrix.of fun i j : Fin n => b i j).transpose) = 1 := by
    ext i j
    rw [Matrix.mul_smul, Matrix.smul_apply, Matrix.mul_apply, Matrix.one_apply]
    simp only [Matrix.of_apply, Matrix.transpose_apply]
    rw [h i j]
    split
    · rw [smul_eq_mul, inv_mul_cancel₀ hN]
    · simp
  rw [mul_eq_one_comm] at h1
  intro i j
  have h2 := congrFun (congrFun h1 i) j
  rw [Matrix.smul_mul, Matrix.smul_apply, Matrix.mul_apply, Matrix.one_apply] at h2
  simp only [Matrix.of_apply, Matrix.transpose_apply, smul_eq_mul] at h2
  have h3 := congrArg (fun x => N * x) h2
  simp only [← mul_assoc, mul_inv_cancel₀ hN, one_mul] at h3
  rw [h3]
  split <;> simp

/-- Applying a matrix with orthogonal columns and then its transpose. -/
theorem twice {n : Nat} {b : Nat → Nat → K} {N p q : K} (h : Orthogonal n (fun i j => b j i) N)
    (hpq : p * q * N = 1) (x : Nat → K) (i : Fin n) :
    ∑ j : Fin n, b j i * q * ∑ l : Fin n, b j l * p * x l = x i := by
  have : ∀ j : Fin n, b j i * q * ∑ l : Fin n, b j l * p * x l
      = ∑ l : Fin n, (b j i * b j l) * (p * q * x l) := by
    intro j
    rw [Finset.mul_sum]
    exact Finset.sum_congr rfl fun l _ => by ring
  rw [Finset.sum_congr rfl fun j _ => this j, Finset.sum_comm]
  have : ∀ l : Fin n, ∑ j : Fin n, (b j i * b j l) * (p * q * x l)
      = if i = l then x l else 0 := by
    intro l
    rw [← Finset.sum_mul, h i l]
    split
    · linear_combination x l * hpq
    · simp
  rw [Finset.sum_congr rfl fun l _ => this l]
  simp

/-- C62. Conversion to an orthogonal basis and back restores every field, if the two prefactors
and the squared norm of the basis vectors multiply to one.  The arrays passed for output only
need the right sizes. -/
theorem C62_roundtrip (n mesh : Nat) (b : Nat → Nat → K) (N p q : K) (hn : 1 < n)
    (hb : Orthogonal n b N) (hpq : p * q * N = 1) (f o1 o2 : List (List K)) (hf : Fits n mesh f)
    (h1 : Fits n mesh o1) (h2 : Fits n mesh o2) :
    ((toBasis n b f o1 p).bind fun g => fromBasis n b g o2 q) = .ok f := by
  have hN : N ≠ 0 := by rintro rfl; simp at hpq
  unfold toBasis
  rw [if_pos (sizesOk_of hn hf h1), headD_length hf hn]
  have hfit := fits_map n mesh fun i k => accum n (fun j => b i j * p * val f j k) 0
  show fromBasis n b _ o2 q = _
  unfold fromBasis
  rw [if_pos (sizesOk_of hn hfit h2), headD_length hfit hn]
  congr 1
  refine Eq.trans ?_ (map_val hf)
  refine List.map_congr_left fun i hi => List.map_congr_left fun k hk => ?_
  rw [List.mem_range] at hi hk
  rw [accum_eq, zero_add]
  refine Eq.trans (Finset.sum_congr rfl fun j _ => ?_)
    (twice (hb.columns hN) hpq (fun l => val f l k) ⟨i, hi⟩)
  rw [val_map n mesh _ j k j.2 hk, accum_eq, zero_add]

/-- C62. The opposite order: components are restored as well. -/
theorem C62_roundtrip' (n mesh : Nat) (b : Nat → Nat → K) (N p q : K) (hn : 1 < n)
    (hb : Orthogonal n b N) (hpq : p * q * N = 1) (f o1 o2 : List (List K)) (hf : Fits n mesh f)
    (h1 : Fits n mesh o1) (h2 : Fits n mesh o2) :
    ((fromBasis n b f o1 p).bind fun g => toBasis n b g o2 q) = .ok f := by
  unfold fromBasis
  rw [if_pos (sizesOk_of hn hf h1), headD_length hf hn]
  have hfit := fits_map n mesh fun i k => accum n (fun j => b j i * p * val f j k) 0
  show toBasis n b _ o2 q = _
  unfold toBasis
  rw [if_pos (sizesOk_of hn hfit h2), headD_length hfit hn]
  congr 1
  refine Eq.trans ?_ (map_val hf)
  refine List.map_congr_left fun i hi => List.map_congr_left fun k hk => ?_
  rw [List.mem_range] at hi hk
  rw [accum_eq, zero_add]
  refine Eq.trans (Finset.sum_congr rfl fun j _ => ?_)
    (twice (b := fun i j => b j i) hb hpq (fun l => val f l k) ⟨i, hi⟩)
  rw [val_map n mesh _ j k j.2 hk, accum_eq, zero_add]

/-- C62. Arrays of wrong number or size are refused. -/
theorem C62_sizes (n : Nat) (b : Nat → Nat → K) (f o : List (List K)) (p : K)
    (g : List (List K)) (h : toBasis n b f o p = .ok g ∨ fromBasis n b f o p = .ok g) :
    1 < n ∧ ∃ mesh, Fits n mesh f ∧ Fits n mesh o ∧ Fits n mesh g := by
  have key : sizesOk n f o = true ∧
      ∃ F : Nat → Nat → K, g = (List.range n).map fun i =>
        (List.range (f.headD []).length).map fun k => F i k := by
    rcases h with h | h
    · unfold toBasis at h
      split at h
      · rename_i hs
        injection h with h
        exact ⟨hs, fun i k => accum n (fun j => b i j * p * val f j k) 0, h.symm⟩
      · cases h
    · unfold fromBasis at h
      split at h
      · rename_i hs
        injection h with h
        exact ⟨hs, fun i k => accum n (fun j => b j i * p * val f j k) 0, h.symm⟩
      · cases h
  obtain ⟨hs, F, rfl⟩ := key
  unfold sizesOk at hs
  simp only [Bool.and_eq_true, decide_eq_true_eq, List.all_eq_true] at hs
  obtain ⟨⟨⟨⟨h1, h2⟩, h3⟩, h4⟩, h5⟩ := hs
  exact ⟨h1, (f.headD []).length, ⟨h2, h4⟩, ⟨h3, h5⟩, fits_map _ _ _⟩

/-! ## The error of a basis -/

theorem foldl_max_le {ι : Type} (l : List ι) (e : ι → K) (m ε : K) :
    l.foldl (fun m j => if e j > m then e j else m) m ≤ ε ↔ m ≤ ε ∧ ∀ j ∈ l, e j ≤ ε := by
  induction l generalizing m with
  | nil => simp
  | cons a l ih =>
    rw [List.foldl_cons, ih]
    constructor
    · rintro ⟨h1, h2⟩
      split at h1
      · rename_i hgt
        refine ⟨by linarith, ?_⟩
        intro j hj
        rcases List.mem_cons.1 hj with rfl | hj
        · exact h1
        · exact h2 j hj
      · rename_i hle
        refine ⟨h1, ?_⟩
        intro j hj
        rcases List.mem_cons.1 hj with rfl | hj
        · push Not at hle; linarith
        · exact h2 j hj
    · rintro ⟨h1, h2⟩
      refine ⟨?_, fun j hj => h2 j (by simp [hj])⟩
      split
      · exact h2 a (by simp)
      · exact h1

theorem foldl2_max_le (l : List Nat) (e : Nat → Nat → K) (m ε : K) :
    l.foldl (fun m i => (List.range (i + 1)).foldl
      (fun m j => if e i j > m then e i j else m) m) m ≤ ε ↔
      m ≤ ε ∧ ∀ i ∈ l, ∀ j, j ≤ i → e i j ≤ ε := by
  induction l generalizing m with
  | nil => simp
  | cons a l ih =>
    rw [List.foldl_cons, ih, foldl_max_le]
    simp only [List.mem_range, List.forall_mem_cons, Nat.lt_succ_iff]
    tauto

/-- C62. `maxBasisError` bounds the deviation of every pair of basis vectors from
orthogonality and from the norm. -/
theorem C62_error (n : Nat) (b : Nat → Nat → K) (N ε e : K) (hε : 0 ≤ ε)
    (h : maxBasisError n b N = .ok e) :
    e ≤ ε ↔ ∀ i j : Fin n, |(∑ k : Fin n, b i k * b j k) - if i = j then N else 0| ≤ ε := by
  unfold maxBasisError at h
  split at h
  · injection h with h
    rw [← h, foldl2_max_le]
    have hp : ∀ i j : Fin n, pairError n b N i j
        = |(∑ k : Fin n, b i k * b j k) - if i = j then N else 0| := by
      intro i j
      unfold pairError
      simp only [accum_eq, zero_add]
      by_cases hij : i = j
      · simp [hij]
      · have : (i : Nat) ≠ j := fun e => hij (Fin.ext e)
        simp [hij, this]
    constructor
    · rintro ⟨-, h2⟩ i j
      rcases le_total (j : Nat) i with hle | hle
      · rw [← hp]
        exact h2 i (List.mem_range.2 i.2) j hle
      · have h3 := h2 j (List.mem_range.2 j.2) i hle
        rw [hp] at h3
        have e1 : (∑ k : Fin n, b i k * b j k) = ∑ k : Fin n, b j k * b i k :=
          Finset.sum_congr rfl fun k _ => mul_comm _ _
        have e2 : (if i = j then N else 0) = if j = i then N else 0 := by
          by_cases hij : i = j
          · simp [hij]
          · simp [hij, Ne.symm hij]
        rw [e1, e2]
        exact h3
    · intro h2
      refine ⟨hε, ?_⟩
      intro i hi j hj
      rw [List.mem_range] at hi
      have := h2 ⟨i, hi⟩ ⟨j, by omega⟩
      rw [← hp] at this
      exact this
  · cases h

/-- C62. The error is zero exactly for an orthogonal basis with the given norm. -/
theorem C62_error_zero (n : Nat) (b : Nat → Nat → K) (N e : K)
    (h : maxBasisError n b N = .ok e) : e ≤ 0 ↔ Orthogonal n b N := by
  rw [C62_error n b N 0 e le_rfl h]
  unfold Orthogonal
  constructor
  · intro h1 i j
    have := abs_nonpos_iff.1 (h1 i j)
    exact sub_eq_zero.1 this
  · intro h1 i j
    rw [h1 i j]
    simp

/-! ## Cases -/

/-- The basis of sums and differences of two monomers, with squared norm two. -/
def exB : Nat → Nat → ℚ := fun i j => if i = 1 ∧ j = 1 then -1 else 1

example : Orthogonal 2 exB 2 := by
  intro i j
  fin_cases i <;> fin_cases j <;> simp [Fin.sum_univ_two, exB] <;> norm_num

example : maxBasisError 2 exB 2 = .ok 0 ∧ maxBasisError 2 exB 3 = .ok 1 := by decide +kernel

example : toBasis 2 exB [[1, 2, 3], [5, 7, 4]] [[0, 0, 0], [9, 9, 9]] (1 / 2) =
    .ok [[3, 9 / 2, 7 / 2], [-2, -5 / 2, -1 / 2]] := by decide +kernel

example : Fits 2 3 ([[1, 2, 3], [5, 7, 4]] : List (List ℚ)) := ⟨rfl, by simp⟩

example : toBasis 2 exB [[1, 2, 3], [5, 7]] [[0, 0, 0], [9, 9, 9]] 1 = .throw := by decide +kernel

end Verif.Field.Conv
