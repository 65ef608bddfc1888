import Verif.Inter.Model
import Mathlib.Tactic.FieldSimp
import Mathlib.Tactic.LinearCombination
import Mathlib.Tactic.FinCases
import Mathlib.Tactic.Positivity
import Mathlib.LinearAlgebra.Matrix.Notation

/-! # C16 (chi and its inverse), C17 (composition/field inversion), C18 (residual) -/

set_option linter.unusedSectionVars false

namespace Verif.Inter

open Matrix

variable {K : Type} [Field K] [LinearOrder K] [IsStrictOrderedRing K] {n : Nat}

/-! ## C16 -/

/-- Specification: symmetric chi with its exact inverse. -/
def Coherent (s : Interaction K n) : Prop :=
  (∀ i j, s.chi i j = s.chi j i) ∧ ∃ B, s.inv = some B ∧ s.chi * B = 1 ∧ B * s.chi = 1

theorem writeChi_symm (s : Interaction K n) (h : ∀ i j, s.chi i j = s.chi j i) (i j : Fin n)
    (x : K) : ∀ a b, (writeChi s i j x).chi a b = (writeChi s i j x).chi b a := by
  intro a b
  simp only [writeChi]
  by_cases h1 : (a = i ∧ b = j) ∨ (i ≠ j ∧ a = j ∧ b = i)
  · rw [if_pos h1, if_pos]
    rcases h1 with ⟨rfl, rfl⟩ | ⟨hne, rfl, rfl⟩
    · by_cases hij : a = b
      · subst hij; simp
      · exact Or.inr ⟨hij, rfl, rfl⟩
    · exact Or.inl ⟨rfl, rfl⟩
  · rw [if_neg h1, if_neg, h]
    rintro (⟨rfl, rfl⟩ | ⟨hne, rfl, rfl⟩)
    · apply h1
      by_cases hij : a = b
      · subst hij; exact Or.inl ⟨rfl, rfl⟩
      · exact Or.inr ⟨fun h => hij h.symm, rfl, rfl⟩
    · exact h1 (Or.inl ⟨rfl, rfl⟩)

theorem updateMembers_chi {lu : LuInverse K} {s s' : Interaction K n}
    (h : updateMembers lu s = .ok s') : s'.chi = s.chi := by
  unfold updateMembers at h
  split at h
  · simp only at h
    split at h
    · split at h <;> cases h <;> rfl
    · split at h <;> cases h
      rfl
  · split at h <;> cases h
    rfl

/-- The explicit 2×2 formula is the inverse when the determinant is not zero. -/
theorem two_inverse (A : Mat K 2) (det : K) (hd : det = A 0 0 * A 1 1 - A 0 1 * A 1 0)
    (h0 : det ≠ 0) :
    A * inverse2 A 0 1 det = 1 := by
  ext i j
  rw [Matrix.mul_apply, Fin.sum_univ_two]
  fin_cases i <;> fin_cases j <;> simp [inverse2] <;> field_simp <;> rw [hd] <;> ring

theorem updateMembers_inv {lu : LuInverse K} (hlu : lu.Correct) {s s' : Interaction K n}
    (hs : ∀ i j, s.chi i j = s.chi j i) (h : updateMembers lu s = .ok s')
    (h0 : n = 2 → s.chi ≠ 0) : Coherent s' := by
  have hchi := updateMembers_chi h
  refine ⟨by rw [hchi]; exact hs, ?_⟩
  suffices hh : ∃ B, s'.inv = some B ∧ s.chi * B = 1 by
    obtain ⟨B, hB, hm⟩ := hh
    rw [hchi]
    exact ⟨B, hB, hm, mul_eq_one_comm.1 hm⟩
  unfold updateMembers at h
  split at h
  · rename_i hn
    subst hn
    simp only at h
    have e0 : (⟨0, by omega⟩ : Fin 2) = 0 := rfl
    have e1 : (⟨1, by omega⟩ : Fin 2) = 1 := rfl
    simp only [Fin.mk_one, Fin.zero_eta] at h
    have hsym := hs 1 0
    have hnorm : s.chi 0 0 * s.chi 0 0 + s.chi 1 1 * s.chi 1 1 + 2 * s.chi 0 1 * s.chi 1 0 ≠ 0 := by
      intro hz
      rw [hsym] at hz
      have a0 : 0 ≤ s.chi 0 0 * s.chi 0 0 := mul_self_nonneg _
      have a1 : 0 ≤ s.chi 1 1 * s.chi 1 1 := mul_self_nonneg _
      have a2 : 0 ≤ s.chi 0 1 * s.chi 0 1 := mul_self_nonneg _
      have b0 : s.chi 0 0 = 0 := mul_self_eq_zero.1 (by linarith)
      have b1 : s.chi 1 1 = 0 := mul_self_eq_zero.1 (by linarith)
      have b2 : s.chi 0 1 = 0 := mul_self_eq_zero.1 (by linarith)
      apply h0 rfl
      ext i j
      fin_cases i <;> fin_cases j <;> simp [b0, b1, b2, hsym]
    rw [if_neg hnorm] at h
    split at h
    · cases h
    · rename_i hlt
      simp only [Res.ok.injEq] at h
      subst h
      refine ⟨_, rfl, two_inverse s.chi _ rfl ?_⟩
      intro hz
      apply hlt
      simp [hz]
  · split at h
    · rename_i B hB
      cases h
      exact ⟨B, rfl, hlu n _ _ hB⟩
    · cases h

/-- Full statement of C16. -/
def C16_statement (K : Type) [Field K] [LinearOrder K] [IsStrictOrderedRing K] : Prop :=
  ∀ (n : Nat) (lu : LuInverse K) (_ : lu.Correct) (chi0 : Mat K n)
    (_ : ∀ i j, chi0 i j = chi0 j i) (s : Interaction K n) (_ : readChi lu chi0 = .ok s)
    (ops : List (Fin n × Fin n × K)) (_ : ∀ b ∈ (setChis lu s ops).1, b = true),
    Coherent (setChis lu s ops).2

/-- What holds of C16: after reading and any history of successful `setChi` calls, chi is
symmetric, and `chiInverse` is the inverse of the current chi, except for the zero matrix with
two monomer types, which is not rejected (see `C16_zero_chi_accepted`). -/
theorem C16_coherent_partial (lu : LuInverse K) (hlu : lu.Correct) (chi0 : Mat K n)
    (hsym : ∀ i j, chi0 i j = chi0 j i) (s : Interaction K n) (hr : readChi lu chi0 = .ok s)
    (ops : List (Fin n × Fin n × K)) (hok : ∀ b ∈ (setChis lu s ops).1, b = true)
    (h0 : n = 2 → (setChis lu s ops).2.chi ≠ 0) : Coherent (setChis lu s ops).2 := by
  -- every state of the history results from a successful `updateMembers`
  have key : ∀ (ops : List (Fin n × Fin n × K)) (s : Interaction K n),
      (∃ t, (∀ i j, t.chi i j = t.chi j i) ∧ updateMembers lu t = .ok s) →
      (∀ b ∈ (setChis lu s ops).1, b = true) →
      ∃ t, (∀ i j, t.chi i j = t.chi j i) ∧ updateMembers lu t = .ok (setChis lu s ops).2 := by
    intro ops
    induction ops with
    | nil => intro s h _; exact h
    | cons o ops ih =>
      obtain ⟨i, j, x⟩ := o
      intro s ⟨t, ht, hts⟩ hall
      simp only [setChis] at hall ⊢
      have hsx : ∀ a b, s.chi a b = s.chi b a := by
        rw [updateMembers_chi hts]; exact ht
      have h1 : (setChi lu s i j x).1 = true := hall _ (by simp)
      apply ih
      · refine ⟨writeChi s i j x, writeChi_symm s hsx i j x, ?_⟩
        unfold setChi at h1 ⊢
        split at h1
        · rename_i s' hs'
          rw [hs']
        · cases h1
      · intro b hb
        exact hall b (by simp [hb])
  obtain ⟨t, ht, hts⟩ := key ops s ⟨⟨chi0, none⟩, hsym, hr⟩ hok
  refine updateMembers_inv hlu ht hts ?_
  intro hn
  rw [← updateMembers_chi hts]
  exact h0 hn

/-- C16 is violated for two monomer types: the zero matrix passes the singularity test
(the test evaluates NaN) and the stored inverse is NaN. -/
theorem C16_zero_chi_accepted (lu : LuInverse K) :
    readChi lu (0 : Mat K 2) = .ok ⟨0, none⟩ := by
  simp [readChi, updateMembers]

theorem C16_violated : ¬ C16_statement K := by
  intro h
  have h2 := h 2 (fun _ _ => none) (fun _ _ _ h => by cases h) 0 (fun _ _ => rfl) _
    (C16_zero_chi_accepted _) [] (by simp [setChis])
  obtain ⟨_, B, hB, _⟩ := h2
  cases hB

/-- C16, error path: a rejected `setChi` leaves the new chi together with the inverse of the
old one; chi = [[0,1],[1,0]] followed by `setChi(0,1,0)`, `chi_11 = 1` is such a case. -/
theorem C16_failed_set_incoherent (lu : LuInverse ℚ) :
    let s : Interaction ℚ 2 := ⟨!![1, 1; 1, 0], some !![0, 1; 1, -1]⟩
    Coherent s ∧ (setChi lu s 0 1 0).1 = false ∧
      (setChi lu s 0 1 0).2.inv = s.inv ∧ (setChi lu s 0 1 0).2.chi ≠ s.chi := by
  have hu : ∀ s : Interaction ℚ 2, s.chi 0 0 = 1 → s.chi 1 1 = 0 → 
      updateMembers lu (writeChi s 0 1 0) = .throw := by
    intro s h1 h2
    simp [updateMembers, writeChi, h1, h2]
  refine ⟨⟨?_, _, rfl, ?_, ?_⟩, ?_, ?_, ?_⟩
  · intro i j; fin_cases i <;> fin_cases j <;> rfl
  · ext i j; fin_cases i <;> fin_cases j <;> simp
  · ext i j; fin_cases i <;> fin_cases j <;> simp
  · rw [setChi, hu _ rfl rfl]
  · rw [setChi, hu _ rfl rfl]; rfl
  · rw [setChi, hu _ rfl rfl]
    intro h
    have := congrFun (congrFun h 0) 1
    simp [writeChi] at this

/-- Hypotheses of C16 are met by an ordinary chi matrix and a `setChi` call. -/
example (lu : LuInverse ℚ) (hlu : lu.Correct) :
    ∃ s, readChi lu !![(0 : ℚ), 10; 10, 0] = .ok s ∧
      (setChis lu s [(0, 1, 12), (1, 1, 3)]).1 = [true, true] ∧
      Coherent (setChis lu s [(0, 1, 12), (1, 1, 3)]).2 := by
  have h1 : ∃ s, readChi lu !![(0 : ℚ), 10; 10, 0] = .ok s ∧ s.chi = !![(0 : ℚ), 10; 10, 0] := by
    simp [readChi, updateMembers]; norm_num
  obtain ⟨s, h1, hs⟩ := h1
  have hf : (setChis lu s [(0, 1, 12), (1, 1, 3)]).1 = [true, true] ∧
      (setChis lu s [(0, 1, 12), (1, 1, 3)]).2.chi ≠ 0 := by
    have e1 : ∃ B, updateMembers lu (writeChi s 0 1 12) = .ok ⟨(writeChi s 0 1 12).chi, some B⟩ := by
      simp [updateMembers, writeChi, hs]; norm_num; exact ⟨_, rfl⟩
    obtain ⟨B, e1⟩ := e1
    have e2 : ∃ B', updateMembers lu (writeChi ⟨(writeChi s 0 1 12).chi, some B⟩ 1 1 3) =
        .ok ⟨(writeChi (⟨(writeChi s 0 1 12).chi, some B⟩ : Interaction ℚ 2) 1 1 3).chi, some B'⟩ := by
      simp [updateMembers, writeChi, hs]; norm_num; exact ⟨_, rfl⟩
    obtain ⟨B', e2⟩ := e2
    simp only [setChis, setChi, e1, e2]
    refine ⟨trivial, ?_⟩
    intro h
    have := congrFun (congrFun h 1) 1
    simp [writeChi] at this
  refine ⟨s, h1, hf.1, ?_⟩
  refine C16_coherent_partial lu hlu _ ?_ s h1 _ ?_ (fun _ => hf.2)
  · intro i j; fin_cases i <;> fin_cases j <;> rfl
  · rw [hf.1]; simp

/-! ## C17 -/

/-- Specification: sum of all elements of a matrix. -/
def total (B : Mat K n) : K := ∑ i, ∑ j, B i j

theorem invSums_eq (B : Mat K n) (w : Fin n → K) :
    invSums B w = (∑ i, ∑ j, B i j * w j, total B) := by
  have key : ∀ f : Fin n → Fin n → K,
      (List.finRange n).foldl (fun s i => accum n (f i) s) 0 = ∑ i, ∑ j, f i j := by
    intro f
    have : (fun (s : K) (i : Fin n) => accum n (f i) s) = fun s i => s + ∑ j, f i j := by
      funext s i; rw [accum_eq]
    rw [this, foldl_add_eq, zero_add, ← List.ofFn_eq_map, List.sum_ofFn]
  rw [invSums, key (fun i j => B i j * w j), key (fun i j => B i j)]
  rfl

/-- C17: computed concentrations always sum to one. -/
theorem C17_concentrations_sum (B : Mat K n) (hS : total B ≠ 0) (w : Fin n → K) :
    ∑ i, (computeC B w).1 i = 1 := by
  simp only [computeC, accum_eq, zero_add, invSums_eq]
  have : ∀ x : K, ∑ i, ∑ j, B i j * (w j - x) = (∑ i, ∑ j, B i j * w j) - x * total B := by
    intro x
    simp only [total, Finset.mul_sum, ← Finset.sum_sub_distrib]
    refine Finset.sum_congr rfl fun i _ => Finset.sum_congr rfl fun j _ => by ring
  rw [this]
  field_simp
  ring

/-- C17: `computeXi` returns the same multiplier as `computeC`. -/
theorem C17_xi_agrees (B : Mat K n) (w : Fin n → K) : computeXi B w = (computeC B w).2 := rfl

/-- C17: the fields computed from a composition that sums to one, shifted by any pressure,
are mapped back to the composition and the pressure. -/
theorem C17_fields_to_composition (chi B : Mat K n) (hB : B * chi = 1) (hS : total B ≠ 0)
    (c : Fin n → K) (hc : ∑ i, c i = 1) (xi : K) :
    computeC B (fun i => computeW chi c i + xi) = (c, xi) := by
  have hmul : ∀ i, ∑ j, B i j * computeW chi c j = c i := by
    intro i
    have : (B *ᵥ (chi *ᵥ c)) i = c i := by rw [mulVec_mulVec, hB, one_mulVec]
    rw [← this]
    simp [mulVec, dotProduct, computeW, accum_eq]
  have hsum1 : ∑ i, ∑ j, B i j * (computeW chi c j + xi) = 1 + xi * total B := by
    have h1 : ∀ i, ∑ j, B i j * (computeW chi c j + xi) = c i + ∑ j, xi * B i j := by
      intro i
      rw [← hmul i, ← Finset.sum_add_distrib]
      exact Finset.sum_congr rfl fun j _ => by ring
    rw [Finset.sum_congr rfl fun i _ => h1 i, Finset.sum_add_distrib, hc, total]
    simp only [Finset.mul_sum]
  have hxi : (computeC B (fun i => computeW chi c i + xi)).2 = xi := by
    simp only [computeC, invSums_eq, hsum1]
    field_simp; ring
  apply Prod.ext
  · funext i
    have : (computeC B (fun i => computeW chi c i + xi)).1 i =
        ∑ j, B i j * (computeW chi c j + xi - (computeC B (fun i => computeW chi c i + xi)).2) := by
      simp only [computeC, accum_eq, zero_add]
    rw [this, hxi]
    show _ = c i
    rw [← hmul i]
    exact Finset.sum_congr rfl fun j _ => by ring
  · exact hxi

/-- C17: `computeXi` recovers the pressure of such fields. -/
theorem C17_xi_recovered (chi B : Mat K n) (hB : B * chi = 1) (hS : total B ≠ 0)
    (c : Fin n → K) (hc : ∑ i, c i = 1) (xi : K) :
    computeXi B (fun i => computeW chi c i + xi) = xi := by
  rw [C17_xi_agrees, C17_fields_to_composition chi B hB hS c hc xi]

/-- C17: conversely, the composition and multiplier returned by `computeC` reproduce the
fields. -/
theorem C17_composition_to_fields (chi B : Mat K n) (hB : chi * B = 1) (w : Fin n → K)
    (i : Fin n) : computeW chi (computeC B w).1 i + (computeC B w).2 = w i := by
  have : computeW chi (computeC B w).1 i = w i - (computeC B w).2 := by
    have h : (chi *ᵥ (B *ᵥ (fun j => w j - (computeC B w).2))) i = w i - (computeC B w).2 := by
      rw [mulVec_mulVec, hB, one_mulVec]
    rw [← h]
    simp [mulVec, dotProduct, computeW, accum_eq, computeC]
  rw [this]; ring

/-- C17: the interaction free energy is half the sum of composition times field, and its change
along any direction is the field in that direction plus the free energy of the step: the fields of
`computeW` are the gradient of `fHelmholtz`. -/
theorem C17_fHelmholtz (chi : Mat K n) (hs : ∀ i j, chi i j = chi j i) (c d : Fin n → K) :
    2 * fHelmholtz chi c = ∑ i, c i * computeW chi c i ∧
    fHelmholtz chi (fun i => c i + d i) =
      fHelmholtz chi c + ∑ i, d i * computeW chi c i + fHelmholtz chi d := by
  have hf : ∀ c : Fin n → K, fHelmholtz chi c = (1 / 2) * ∑ i, ∑ j, chi i j * c i * c j := by
    intro c
    unfold fHelmholtz
    congr 1
    have : ∀ (l : List (Fin n)) (s : K),
        l.foldl (fun s i => accum n (fun j => chi i j * c i * c j) s) s =
        s + (l.map fun i => ∑ j, chi i j * c i * c j).sum := by
      intro l
      induction l with
      | nil => intro s; simp
      | cons a l ih => intro s; rw [List.foldl_cons, ih, accum_eq]; simp [add_assoc]
    rw [this, zero_add, ← List.ofFn_eq_map, List.sum_ofFn]
  have hw : ∀ c i, computeW chi c i = ∑ j, chi i j * c j := by
    intro c i; simp [computeW, accum_eq]
  constructor
  · rw [hf, ← mul_assoc, mul_one_div_cancel (two_ne_zero), one_mul]
    refine Finset.sum_congr rfl fun i _ => ?_
    rw [hw, Finset.mul_sum]
    exact Finset.sum_congr rfl fun j _ => by ring
  · simp only [hf, hw]
    have h1 : ∑ i, ∑ j, chi i j * c i * d j = ∑ i, d i * ∑ j, chi i j * c j := by
      rw [Finset.sum_comm]
      refine Finset.sum_congr rfl fun i _ => ?_
      rw [Finset.mul_sum]
      exact Finset.sum_congr rfl fun j _ => by rw [hs j i]; ring
    have h2 : ∑ i, ∑ j, chi i j * d i * c j = ∑ i, d i * ∑ j, chi i j * c j := by
      refine Finset.sum_congr rfl fun i _ => ?_
      rw [Finset.mul_sum]
      exact Finset.sum_congr rfl fun j _ => by ring
    have h3 : ∑ i, ∑ j, chi i j * (c i + d i) * (c j + d j) =
        ∑ i, ∑ j, chi i j * c i * c j + ∑ i, ∑ j, chi i j * c i * d j +
        ∑ i, ∑ j, chi i j * d i * c j + ∑ i, ∑ j, chi i j * d i * d j := by
      simp only [← Finset.sum_add_distrib]
      exact Finset.sum_congr rfl fun i _ => Finset.sum_congr rfl fun j _ => by ring
    rw [h3, h1, h2]; ring

example : fHelmholtz (n := 2) (fun i j => if i = j then (0 : ℚ) else 3) ![1/4, 3/4] = 9 / 16 := by
  decide +kernel

/-- C17: a uniform shift of the fields leaves the composition and shifts the multiplier. -/
theorem C17_shift_invariance (B : Mat K n) (hS : total B ≠ 0) (w : Fin n → K) (a : K) :
    (computeC B (fun i => w i + a)).1 = (computeC B w).1 ∧
    (computeC B (fun i => w i + a)).2 = (computeC B w).2 + a := by
  have hx : (computeC B (fun i => w i + a)).2 = (computeC B w).2 + a := by
    simp only [computeC, invSums_eq]
    have : ∑ i, ∑ j, B i j * (w j + a) = (∑ i, ∑ j, B i j * w j) + a * total B := by
      simp only [total, Finset.mul_sum, ← Finset.sum_add_distrib]
      refine Finset.sum_congr rfl fun i _ => Finset.sum_congr rfl fun j _ => by ring
    rw [this]; field_simp; ring
  refine ⟨?_, hx⟩
  funext i
  have e : ∀ v : Fin n → K, (computeC B v).1 i = ∑ j, B i j * (v j - (computeC B v).2) := by
    intro v; simp only [computeC, accum_eq, zero_add]
  rw [e, e, hx]
  exact Finset.sum_congr rfl fun j _ => by ring

example : total (!![(0 : ℚ), 1/10; 1/10, 0]) ≠ 0 ∧
    !![(0 : ℚ), 1/10; 1/10, 0] * !![(0 : ℚ), 10; 10, 0] = 1 := by
  constructor
  · simp [total, Fin.sum_univ_two]
  · ext i j; fin_cases i <;> fin_cases j <;> simp

/-! ## C18 -/

theorem pRow_eq (B : Mat K n) (j : Fin n) : pRow B j = - ∑ k, B k j := by
  simp [pRow, accum_eq]

theorem sumChiInverse_eq (B : Mat K n) : sumChiInverse B = total B := by
  simp only [sumChiInverse, accum_eq, pRow_eq, neg_neg, zero_add, total]
  exact Finset.sum_comm

theorem pMatrix_eq (B : Mat K n) (i j : Fin n) :
    pMatrix B i j = (if i = j then 1 else 0) - (∑ k, B k j) / total B := by
  rw [pMatrix, pRow_eq, sumChiInverse_eq]; ring

/-- p applied to a vector. -/
theorem pMatrix_mul (B : Mat K n) (v : Fin n → K) (i : Fin n) :
    ∑ j, pMatrix B i j * v j = v i - (∑ j, (∑ k, B k j) * v j) / total B := by
  simp only [pMatrix_eq, sub_mul, Finset.sum_sub_distrib, ite_mul, one_mul, zero_mul,
    Finset.sum_ite_eq, Finset.mem_univ, if_true]
  congr 1
  rw [div_eq_mul_inv, Finset.sum_mul]
  exact Finset.sum_congr rfl fun j _ => by ring

/-- C18: p annihilates uniform shifts of all fields. -/
theorem C18_p_annihilates_shift (B : Mat K n) (hS : total B ≠ 0) (a : K) (i : Fin n) :
    ∑ j, pMatrix B i j * a = 0 := by
  rw [pMatrix_mul B (fun _ => a)]
  have : ∑ j, (∑ k, B k j) * a = a * total B := by
    rw [← Finset.sum_mul, Finset.sum_comm, mul_comm]; rfl
  rw [this]; field_simp; ring

/-- C18: p is idempotent. -/
theorem C18_p_idempotent (B : Mat K n) (hS : total B ≠ 0) : pMatrix B * pMatrix B = pMatrix B := by
  ext i j
  rw [Matrix.mul_apply, pMatrix_mul B (fun k => pMatrix B k j) i]
  have : ∑ k, (∑ l, B l k) * pMatrix B k j = 0 := by
    simp only [pMatrix_eq, mul_sub, Finset.sum_sub_distrib, mul_ite, mul_one, mul_zero,
      Finset.sum_ite_eq', Finset.mem_univ, if_true]
    rw [← Finset.sum_mul]
    have ht : ∑ k, ∑ l, B l k = total B := by rw [total, Finset.sum_comm]
    rw [ht]; field_simp; ring
  rw [this]; simp

/-- C18: the residual of all monomers vanishes exactly when the concentrations sum to the
mask value and the fields differ from `chi c + h` by one common constant. -/
theorem C18_residual_zero_iff (chi B : Mat K n) (hBl : B * chi = 1) (hS : total B ≠ 0)
    (c w h : Fin n → K) (m : K) :
    (∀ i, residual chi B c w h m i = 0) ↔
      (∑ i, c i = m ∧ ∃ xi, ∀ i, w i = (∑ j, chi i j * c j) + h i + xi) := by
  have hres : ∀ i, residual chi B c w h m i = (∑ j, chi i j * c j) + (h i - w i)
      - ((∑ j, (∑ k, B k j) * (h j - w j)) + m) / total B := by
    intro i
    simp only [residual, accum_eq, zero_add, Finset.sum_add_distrib, pMatrix_mul,
      sumChiInverse_eq]
    ring
  -- column sums of `B` applied to `chi c`
  have hcol : ∀ c : Fin n → K, ∑ j, (∑ k, B k j) * (∑ l, chi j l * c l) = ∑ i, c i := by
    intro c
    have h1 : ∀ k, ∑ j, B k j * (∑ l, chi j l * c l) = c k := by
      intro k
      have : (B *ᵥ (chi *ᵥ c)) k = c k := by rw [mulVec_mulVec, hBl, one_mulVec]
      rw [← this]; simp [mulVec, dotProduct]
    simp only [Finset.sum_mul]
    rw [Finset.sum_comm]
    exact Finset.sum_congr rfl fun k _ => h1 k
  have hcs : ∀ a : K, ∑ j, (∑ k, B k j) * a = a * total B := by
    intro a
    rw [← Finset.sum_mul, Finset.sum_comm, mul_comm]; rfl
  constructor
  · intro h0
    have hw : ∀ i, w i = (∑ j, chi i j * c j) + h i +
        (-(((∑ j, (∑ k, B k j) * (h j - w j)) + m) / total B)) := by
      intro i
      have := h0 i
      rw [hres] at this
      linear_combination -this
    refine ⟨?_, _, hw⟩
    set A := ((∑ j, (∑ k, B k j) * (h j - w j)) + m) / total B with hA
    have e1 : ∑ j, (∑ k, B k j) * (h j - w j) = - (∑ i, c i) + A * total B := by
      have : ∀ j, (∑ k, B k j) * (h j - w j) =
          (∑ k, B k j) * A - (∑ k, B k j) * (∑ l, chi j l * c l) := by
        intro j; rw [hw j]; ring
      rw [Finset.sum_congr rfl fun j _ => this j, Finset.sum_sub_distrib, hcs, hcol]; ring
    have e2 : A * total B = (∑ j, (∑ k, B k j) * (h j - w j)) + m := by
      rw [hA]; field_simp
    rw [e1] at e2
    linear_combination e2
  · rintro ⟨hc, xi, hw⟩ i
    rw [hres]
    have e1 : ∑ j, (∑ k, B k j) * (h j - w j) = - m - xi * total B := by
      have : ∀ j, (∑ k, B k j) * (h j - w j) =
          - ((∑ k, B k j) * (∑ l, chi j l * c l)) - (∑ k, B k j) * xi := by
        intro j; rw [hw j]; ring
      rw [Finset.sum_congr rfl fun j _ => this j, Finset.sum_sub_distrib, Finset.sum_neg_distrib,
        hcs, hcol, hc]
    rw [e1, hw i]
    field_simp
    ring

/-- C18: the residual does not change under a uniform shift of the fields. -/
theorem C18_residual_shift_invariant (chi B : Mat K n) (hS : total B ≠ 0)
    (c w h : Fin n → K) (m a : K) (i : Fin n) :
    residual chi B c (fun j => w j + a) h m i = residual chi B c w h m i := by
  have h1 := C18_p_annihilates_shift B hS a i
  have h2 : ∀ j, chi i j * c j + pMatrix B i j * (h j - (w j + a)) =
      (chi i j * c j + pMatrix B i j * (h j - w j)) - pMatrix B i j * a := by intro j; ring
  simp only [residual, accum_eq, zero_add]
  rw [Finset.sum_congr rfl fun j _ => h2 j, Finset.sum_sub_distrib, h1]; ring

/-- C18, canonical ensemble: the homogeneous component assigned by the update makes the
homogeneous residual vanish (before it is zeroed) whenever the mean concentrations sum to the
mask, so zeroing these residuals loses nothing. -/
theorem C18_canonical_homogeneous (chi B : Mat K n) (hBl : B * chi = 1) (hS : total B ≠ 0)
    (c0 h0 : Fin n → K) (m : K) (hc : ∑ i, c0 i = m) (i : Fin n) :
    residual chi B c0 (canonicalW0 chi c0 h0) h0 m i = 0 := by
  refine (C18_residual_zero_iff chi B hBl hS c0 _ h0 m).2 ⟨hc, 0, ?_⟩ i
  intro j
  simp [canonicalW0, accum_eq]

/-- Specification: target value of the total concentration. -/
def maskValue (mask : Option (Nat → K)) (k : Nat) : K :=
  match mask with
  | some m => m k
  | none => if k = 0 then 1 else 0

/-- Specification: external field, zero if there is none. -/
def extValue (h : Option (Fin n → Nat → K)) (i : Fin n) (k : Nat) : K :=
  match h with
  | some h => h i k
  | none => 0

/-- C18: the whole residual vector vanishes exactly when, for every basis function (except the
homogeneous one in the canonical ensemble), the concentrations sum to the mask (to one,
without mask) and the fields minus external fields minus `chi c` are common to all monomers. -/
theorem C18_converged_iff (chi B : Mat K n) (hBl : B * chi = 1) (hS : total B ≠ 0)
    (canonical : Bool) (mask : Option (Nat → K)) (h : Option (Fin n → Nat → K))
    (c w : Fin n → Nat → K) (nBasis : Nat) :
    (∀ i k, k < nBasis → residVec chi B canonical mask h c w i k = 0) ↔
    ∀ k, k < nBasis → (canonical = true → k ≠ 0) →
      ∑ i, c i k = maskValue mask k ∧
      ∃ xi, ∀ i, w i k - extValue h i k - ∑ j, chi i j * c j k = xi := by
  have e : ∀ i k, ¬ (canonical = true ∧ k = 0) → residVec chi B canonical mask h c w i k =
      residual chi B (fun j => c j k) (fun j => w j k)
        (fun j => extValue h j k)
        (maskValue mask k) i := by
    intro i k hk
    unfold residVec residual
    rw [if_neg hk]
    simp only [accum_eq, zero_add]
    cases h <;> cases mask <;> simp only [maskValue, extValue, zero_sub, mul_neg, ← sub_eq_add_neg]
    all_goals split <;> ring
  have iff1 := fun k => C18_residual_zero_iff chi B hBl hS (fun j => c j k) (fun j => w j k)
        (fun j => extValue h j k)
        (maskValue mask k)
  constructor
  · intro hz k hk hc
    have hk' : ¬ (canonical = true ∧ k = 0) := fun hh => hc hh.1 hh.2
    obtain ⟨h1, xi, h2⟩ := (iff1 k).1 (fun i => by rw [← e i k hk']; exact hz i k hk)
    refine ⟨h1, xi, fun i => ?_⟩
    rw [h2 i]; ring
  · intro hz i k hk
    by_cases hk' : canonical = true ∧ k = 0
    · unfold residVec; rw [if_pos hk']
    · rw [e i k hk']
      obtain ⟨h1, xi, h2⟩ := hz k hk (fun hc h0 => hk' ⟨hc, h0⟩)
      refine (iff1 k).2 ⟨h1, xi, fun i => ?_⟩ i
      rw [← h2 i]; ring

/-- Non-trivial instance: a binary system with chi = 10. -/
example : residual (K := ℚ) !![0, 10; 10, 0] !![0, 1/10; 1/10, 0] ![1/4, 3/4] ![7.5+2, 2.5+2] 0 1 0 = 0 := by
  refine (C18_residual_zero_iff _ _ ?_ ?_ _ _ _ _).2 ⟨?_, 2, ?_⟩ 0
  · ext i j; fin_cases i <;> fin_cases j <;> simp
  · simp [total, Fin.sum_univ_two]
  · simp [Fin.sum_univ_two]; norm_num
  · intro i; fin_cases i <;> simp [Fin.sum_univ_two] <;> norm_num

end Verif.Inter
