import Verif.Scft.Lemmas
import Verif.AM.Props

/-!
# C99 (vectors of the iterators), C100 (convergence means that the SCFT equations hold)
-/

set_option autoImplicit false
set_option linter.unusedSectionVars false

namespace Verif.Scft

open Verif.Inter Verif.Solver

variable {M L : Nat}

/-! ## C99 -/

/-- **C99**: in an ensemble that is not canonical, `update` followed by `getCurrent` returns the
vector. -/
theorem C99_roundtrip (P : Prob M) (hs : P.scale ≠ 0) (hc : P.canonical = false) (s : St M L)
    (y : AM.Vec ℝ (nElements P L)) : getCurrent P (update P s y) = y := by
  funext x
  unfold getCurrent
  rcases pos_cases P x with ⟨i, k, rfl⟩ | ⟨hf, j, hj, hfl, rfl⟩
  · rw [pack_field]
    show newFields P s (arr P y) i k = _
    unfold newFields
    simp only [hc, Bool.false_eq_true, if_false]
    exact arr_field P y i k
  · rw [pack_cell, update_par P s y hf j hj hfl]
    field_simp

theorem newFields_eq (P : Prob M) (s : St M L) (y : Nat → ℝ) (i : Fin M) (k : Fin L)
    (hc : P.canonical = true) : newFields P s y i k = y (i.val * L + k.val) +
      ((∑ j, P.chi i j * mean P.grid (s.ev.c j)) + mean P.grid (extV s.ev i) -
        mean P.grid (fun k : Fin L => y (i.val * L + k.val))) * one P.grid k := by
  have hL : 0 < L := by have := k.2; omega
  have h0 : mean P.grid (extV s.ev i) = match s.ev.ext with
      | some h => mean P.grid (h i)
      | none => 0 := by
    unfold extV
    cases s.ev.ext with
    | none => exact mean_zero _
    | some h => rfl
  rw [h0]
  have r := removeMean P.grid true (fun k : Fin L => y (i.val * L + k.val)) k
  simp only [if_true] at r
  unfold newFields
  simp only [hc, if_true, accum_eq, zero_add]
  rw [accum_eq, zero_add] at r
  cases hg : P.grid
  · rw [hg] at r
    simp only [Bool.false_eq_true, if_false] at r ⊢
    unfold one at r ⊢
    split
    · rename_i hk
      simp only [hk, if_true, Bool.false_eq_true, if_false] at r ⊢
      cases s.ev.ext <;> simp only <;> linarith
    · rename_i hk
      simp
  · rw [hg] at r
    simp only [if_true] at r ⊢
    rw [r]
    unfold one
    cases s.ev.ext <;> simp <;> ring

theorem update_mean (P : Prob M) (hc : P.canonical = true) (s : St M L)
    (y : AM.Vec ℝ (nElements P L)) (i : Fin M) (hL : 0 < L) : mean P.grid ((update P s y).w i) =
      (∑ j, P.chi i j * mean P.grid (s.ev.c j)) + mean P.grid (extV s.ev i) := by
  have e : (update P s y).w i = fun k : Fin L => arr P y (i.val * L + k.val) +
      ((∑ j, P.chi i j * mean P.grid (s.ev.c j)) + mean P.grid (extV s.ev i) -
        mean P.grid (fun k : Fin L => arr P y (i.val * L + k.val))) * one P.grid k := by
    funext k
    exact newFields_eq P s (arr P y) i k hc
  rw [e, mean_add, mean_one_mul _ hL]
  ring

/-- **C99**: in the canonical ensemble `update` replaces the average of each field by that of
`chi c + h`, where `c` and `h` are the fields before the update; apart from a constant the fields
are those of the vector, and the unit cell parameters are those of the vector. -/
theorem C99_canonical (P : Prob M) (hs : P.scale ≠ 0) (hc : P.canonical = true) (s : St M L)
    (y : AM.Vec ℝ (nElements P L)) :
    (∀ i : Fin M, 0 < L → mean P.grid ((update P s y).w i) =
      (∑ j, P.chi i j * mean P.grid (s.ev.c j)) + mean P.grid (extV s.ev i)) ∧
    (∀ i : Fin M, ∃ a : ℝ, ∀ k : Fin L,
      (update P s y).w i k = y (fieldPos P i k) + a * one P.grid k) ∧
    (∀ (hf : P.isFlexible = true) (j : Nat) (hj : j < P.nParam) (hfl : P.flexible j = true),
      getCurrent P (update P s y) (cellPos P hf j hj hfl) = y (cellPos P hf j hj hfl)) := by
  refine ⟨fun i hL => ?_, fun i => ?_, fun hf j hj hfl => ?_⟩
  · exact update_mean P hc s y i hL
  · refine ⟨(∑ j, P.chi i j * mean P.grid (s.ev.c j)) + mean P.grid (extV s.ev i) -
      mean P.grid (fun k : Fin L => arr P y (i.val * L + k.val)), fun k => ?_⟩
    have := newFields_eq P s (arr P y) i k hc
    rw [arr_field] at this
    exact this
  · unfold getCurrent
    rw [pack_cell, update_par P s y hf j hj hfl]
    field_simp

/-- **C99**: parameters that are not flexible never change. -/
theorem C99_fixed (P : Prob M) (s : St M L) (y : AM.Vec ℝ (nElements P L)) (j : Nat)
    (h : P.isFlexible = false ∨ P.nParam ≤ j ∨ P.flexible j = false) :
    (update P s y).par j = s.par j := update_par_fixed P s y j h

/-- **C99**: equal vectors belong to equal fields and equal flexible parameters. -/
theorem C99_injective (P : Prob M) (hs : P.scale ≠ 0) (s t : St M L)
    (h : getCurrent P s = getCurrent P t) :
    s.w = t.w ∧ (P.isFlexible = true → ∀ j, j < P.nParam → P.flexible j = true →
      s.par j = t.par j) := by
  refine ⟨?_, fun hf j hj hfl => ?_⟩
  · funext i k
    have := congrFun h (fieldPos P i k)
    unfold getCurrent at this
    rwa [pack_field, pack_field] at this
  · have := congrFun h (cellPos P hf j hj hfl)
    unfold getCurrent at this
    rw [pack_cell, pack_cell] at this
    exact mul_left_cancel₀ hs this

/-- The flexible parameters are the first ones. -/
def Leading (P : Prob M) : Prop :=
  ∀ i, i < P.nParam → P.flexible i = true → ∀ j, j ≤ i → P.flexible j = true

theorem nFlex_all (flag : Nat → Bool) : ∀ i, (∀ j, j < i → flag j = true) → nFlex flag i = i
  | 0, _ => rfl
  | i + 1, h => by
    rw [nFlex, nFlex_all flag i (fun j hj => h j (by omega)), if_pos (h i (by omega))]

theorem nFlex_all_of (flag : Nat → Bool) : ∀ i, nFlex flag i = i → ∀ j, j < i → flag j = true
  | 0, _, j, hj => by omega
  | i + 1, h, j, hj => by
    rw [nFlex] at h
    have := nFlex_le_self flag i
    by_cases hf : flag i = true
    · rw [if_pos hf] at h
      rcases Nat.lt_or_ge j i with h1 | h1
      · exact nFlex_all_of flag i (by omega) j h1
      · have : j = i := by omega
        rwa [this]
    · rw [if_neg hf] at h
      omega

theorem loadFlexGpu_ok (flag : Nat → Bool) (coeff : ℝ) (tempH y : Nat → ℝ) (cap b : Nat) :
    ∀ (t i : Nat) (p : Nat → ℝ), (∀ j, i ≤ j → j < i + t → flag j = true →
      j < cap ∧ nFlex flag j = j) → (∀ j, tempH j = y (b + j)) →
    loadFlexGpu flag coeff tempH cap t i p =
      .ok (loadFlex flag coeff y t i (b + nFlex flag i) p)
  | 0, _, _, _, _ => rfl
  | t + 1, i, p, h, hy => by
    have e : b + nFlex flag i + (if flag i then 1 else 0) = b + nFlex flag (i + 1) := by
      rw [nFlex]; omega
    rw [loadFlexGpu, loadFlex]
    split
    · rename_i hf
      obtain ⟨h1, h2⟩ := h i (by omega) (by omega) hf
      rw [if_pos hf] at e
      rw [if_pos h1, loadFlexGpu_ok flag coeff tempH y cap b t (i + 1) _
        (fun j h3 h4 => h j (by omega) (by omega)) hy, e, hy, h2]
    · rename_i hf
      rw [if_neg hf, Nat.add_zero] at e
      rw [loadFlexGpu_ok flag coeff tempH y cap b t (i + 1) _
        (fun j h3 h4 => h j (by omega) (by omega)) hy, e]

theorem loadFlexGpu_ub (flag : Nat → Bool) (coeff : ℝ) (tempH : Nat → ℝ) (cap : Nat) :
    ∀ (t i : Nat) (p : Nat → ℝ) (j : Nat), i ≤ j → j < i + t → flag j = true → cap ≤ j →
    loadFlexGpu flag coeff tempH cap t i p = .ub
  | 0, _, _, _, _, _, _, _ => by omega
  | t + 1, i, p, j, h1, h2, hf, hj => by
    rw [loadFlexGpu]
    rcases Nat.lt_or_ge i j with h3 | h3
    · split
      · split
        · exact loadFlexGpu_ub flag coeff tempH cap t (i + 1) _ j h3 (by omega) hf hj
        · rfl
      · exact loadFlexGpu_ub flag coeff tempH cap t (i + 1) _ j h3 (by omega) hf hj
    · have : i = j := by omega
      subst this
      rw [if_pos hf, if_neg (by omega)]

/-- **C99** for the GPU program on a grid, in part: `update` does what the CPU program does if the
flexible parameters are the first ones. Missing: all other choices, see `C99_gpu_violated`. -/
theorem C99_gpu_partial (P : Prob M) (s : St M L) (y : AM.Vec ℝ (nElements P L))
    (h : P.isFlexible = false ∨ Leading P) : updateGpu P s y = .ok (update P s y) := by
  unfold updateGpu update
  by_cases hf : P.isFlexible = true
  · have hl : Leading P := by
      rcases h with h | h
      · simp [hf] at h
      · exact h
    simp only [hf, if_true]
    rw [loadFlexGpu_ok P.flexible (1 / P.scale) _ (arr P y) _ (M * L) P.nParam 0 s.par ?_
      (fun j => rfl)]
    · rfl
    · intro j _ h2 h3
      have e : nFlex P.flexible j = j := nFlex_all _ _ (fun i hi => hl j (by omega) h3 i (by omega))
      refine ⟨?_, e⟩
      have := nFlex_lt P.flexible (show j < P.nParam by omega) h3
      omega
  · simp only [hf]
    rfl

/-- **C99** is violated by the GPU program on a grid: for every choice of flexible parameters other
than the first ones, `update` reads beyond the end of an array. -/
theorem C99_gpu_violated (P : Prob M) (s : St M L) (y : AM.Vec ℝ (nElements P L))
    (hf : P.isFlexible = true) (h : ¬ Leading P) : updateGpu P s y = .ub := by
  unfold Leading at h
  push Not at h
  obtain ⟨i, h1, h2, j, h3, h4⟩ := h
  -- the last flexible parameter is at least the number of flexible parameters
  have key : ∃ q, q < P.nParam ∧ P.flexible q = true ∧ nFlex P.flexible P.nParam ≤ q := by
    by_contra hcon
    push Not at hcon
    -- position of the last flexible parameter
    have hall : ∀ n, n ≤ P.nParam → i < n → ∃ q, q < n ∧ i ≤ q ∧ P.flexible q = true ∧
        nFlex P.flexible n = nFlex P.flexible (q + 1) := by
      intro n
      induction n with
      | zero => intro _ h; omega
      | succ n ih =>
        intro hn hi
        by_cases hfn : P.flexible n = true
        · exact ⟨n, by omega, by omega, hfn, rfl⟩
        · have : i ≠ n := fun e => hfn (e ▸ h2)
          obtain ⟨q, q1, q2, q3, q4⟩ := ih (by omega) (by omega)
          refine ⟨q, by omega, q2, q3, ?_⟩
          rw [nFlex, if_neg hfn, Nat.add_zero, q4]
    obtain ⟨q, q1, q2, q3, q4⟩ := hall P.nParam (Nat.le_refl _) h1
    have hq := hcon q q1 q3
    rw [q4] at hq
    have e : nFlex P.flexible (q + 1) = q + 1 := by
      have := nFlex_le_self P.flexible (q + 1)
      omega
    have := nFlex_all_of P.flexible (q + 1) e j (by omega)
    exact h4 this
  obtain ⟨q, q1, q2, q3⟩ := key
  unfold updateGpu
  simp only [hf, if_true]
  rw [loadFlexGpu_ub P.flexible _ _ _ P.nParam 0 s.par q (by omega) (by omega) q2 q3]
  rfl

/-! ## C100 -/

/-- The SCFT equations hold within `tol`: there is a pressure field `ξ` such that each field is
`chi c + h + ξ` up to a constant `a i`, the sum of the concentrations is the mask (or 1) up to a
constant `b`, and the stress for each flexible parameter, times the scale factor, is zero. -/
structure Within (P : Prob M) (s : St M L) (a : Fin M → ℝ) (b tol : ℝ) : Prop where
  fields : ∃ ξ : Fld L ℝ, ∀ i k, |s.w i k - (∑ j, P.chi i j * s.ev.c j k) - extV s.ev i k - ξ k -
    a i * one P.grid k| ≤ tol
  incompressible : ∀ k, |(∑ j, s.ev.c j k) - maskV P.grid s.ev k - b * one P.grid k| ≤
    tol * ∑ j, |∑ i, P.inv i j|
  cell : P.isFlexible = true → ∀ j, j < P.nParam → P.flexible j = true →
    |P.scale * s.ev.stress j| ≤ tol

/-- Bound on each element of the residual implied by convergence. -/
noncomputable def tolerance {N : Nat} (t : ErrorType) (eps : ℝ) (x : AM.Vec ℝ N) : ℝ :=
  match t with
  | .maxResid => eps
  | .normResid => eps
  | .rmsResid => eps * Real.sqrt N
  | .relNormResid => eps * norm x

/-- **C100**: an error below `eps` bounds each element of the residual. -/
theorem C100_error {N : Nat} (t : ErrorType) (eps e : ℝ) (r x : AM.Vec ℝ N)
    (h : computeError t eps r x = some e) (he : e < eps) (i : Fin N) :
    |r i| ≤ tolerance t eps x := by
  have hm := maxAbs_ge r i
  have hn := norm_ge r i
  unfold computeError at h
  unfold tolerance
  cases t <;> simp only at h ⊢
  · injection h with h; linarith
  · injection h with h; linarith
  · injection h with h
    have hN : 0 < (N : ℝ) := by have := i.2; exact_mod_cast (show 0 < N by omega)
    have : 0 < Real.sqrt N := Real.sqrt_pos.2 hN
    rw [← h, div_lt_iff₀ this] at he
    linarith
  · split at h
    · injection h with h; linarith
    · rename_i h0
      injection h with h
      have : 0 < norm x := lt_of_le_of_ne (norm_nonneg x) (Ne.symm h0)
      rw [← h, div_lt_iff₀ this] at he
      linarith

/-- Residuals below `tol` mean that the equations hold within `tol`. -/
theorem within_of_resid (P : Prob M) (hB : P.inv * P.chi = 1) (hS : total P.inv ≠ 0) (s : St M L)
    (tol : ℝ) (h : ∀ x, |getResidual P false s x| ≤ tol) :
    Within P s (fun i => if P.canonical then -mean P.grid (rawResid P s i) else 0)
      (if P.canonical then mean P.grid (fun k => (∑ j, s.ev.c j k) - maskV P.grid s.ev k) else 0)
      tol := by
  have hf : ∀ i k, |residCpu P s i k| ≤ tol := by
    intro i k
    have := h (fieldPos P i k)
    unfold getResidual at this
    rwa [pack_field] at this
  refine ⟨⟨fun k => -(((∑ j, (∑ l, P.inv l j) * (extV s.ev j k - s.w j k)) + maskV P.grid s.ev k) /
    total P.inv), fun i k => ?_⟩, fun k => ?_, fun hfl j hj hjf => ?_⟩
  · have := hf i k
    rw [residCpu_eq, rawResid_eq] at this
    rw [← abs_neg]
    convert this using 2
    split <;> ring
  · have e : (∑ j, s.ev.c j k) - maskV P.grid s.ev k - (if P.canonical then
        mean P.grid (fun k => (∑ j, s.ev.c j k) - maskV P.grid s.ev k) else 0) * one P.grid k =
        ∑ i, (∑ l, P.inv l i) * residCpu P s i k := by
      simp only [residCpu_eq, mul_sub, Finset.sum_sub_distrib, rawResid_cols hB hS s]
      congr 1
      split
      · have : (fun k => (∑ j, s.ev.c j k) - maskV P.grid s.ev k) =
            fun k => ∑ i, (∑ l, P.inv l i) * rawResid P s i k := by
          funext k
          rw [rawResid_cols hB hS]
        rw [this, mean_sum, Finset.sum_mul]
        simp only [mean_smul]
        exact Finset.sum_congr rfl fun i _ => by ring
      · simp
    rw [e]
    refine (Finset.abs_sum_le_sum_abs _ _).trans ?_
    rw [Finset.mul_sum]
    apply Finset.sum_le_sum
    intro i _
    rw [abs_mul, mul_comm]
    exact mul_le_mul_of_nonneg_right (hf i k) (abs_nonneg _)
  · have := h (cellPos P hfl j hj hjf)
    unfold getResidual at this
    rw [pack_cell] at this
    rw [← abs_neg]
    convert this using 2
    ring

/-- **C100**: if the iterator of a CPU program (grid or basis) reports convergence, the concentrations
and the stress are those of the final fields and unit cell, and the SCFT equations hold within the
tolerance: in an open ensemble without any constants, in the canonical ensemble up to a constant for
each monomer type and one for the sum of the concentrations. -/
theorem C100_converged (P : Prob M) (hB : P.inv * P.chi = 1) (hS : total P.inv ≠ 0)
    (E : (Fin M → Fld L ℝ) → (Nat → ℝ) → Eval M L) (lu : AM.LinSolve ℝ) (t : ErrorType)
    (eps : ℝ) (lam : Nat → ℝ) (maxItr : Nat) (cont : Bool) (s : St M L)
    (am : AM.Iter ℝ (nElements P L)) :
    let o := AM.solve (sys P false E) lu (computeError t eps) eps lam maxItr cont s am
    o.code = some 0 → o.sys.ev = E o.sys.w o.sys.par ∧
      ∃ a b, (P.canonical = false → a = 0 ∧ b = 0) ∧
        Within P o.sys a b (tolerance t eps (getCurrent P o.sys)) := by
  intro o hc
  obtain ⟨h1, ⟨u, hu⟩, _⟩ := AM.C23_return_code (sys P false E) lu (computeError t eps) eps lam
    maxItr cont s am
  obtain ⟨e, he, hlt⟩ := h1 hc
  refine ⟨?_, _, _, ?_, within_of_resid P hB hS _ _ fun x => C100_error t eps e _ _ he hlt x⟩
  · have : o.sys = evaluate E u := hu
    rw [this]
    rfl
  · intro h
    simp only [h, Bool.false_eq_true, if_false, and_true]
    rfl

/-- Averages of the residual in terms of averages of the fields. -/
theorem mean_rawResid (P : Prob M) (s : St M L) (i : Fin M) : mean P.grid (rawResid P s i) =
    (∑ j, P.chi i j * mean P.grid (s.ev.c j)) + (mean P.grid (extV s.ev i) - mean P.grid (s.w i)) -
      mean P.grid (fun k => ((∑ j, (∑ l, P.inv l j) * (extV s.ev j k - s.w j k)) +
        maskV P.grid s.ev k) / total P.inv) := by
  have e : rawResid P s i = fun k => ((∑ j, P.chi i j * s.ev.c j k) + (extV s.ev i k - s.w i k)) -
      ((∑ j, (∑ l, P.inv l j) * (extV s.ev j k - s.w j k)) + maskV P.grid s.ev k) / total P.inv := by
    funext k
    exact rawResid_eq s i k
  rw [e, mean_sub, mean_add, mean_sub, mean_sum]
  simp only [mean_smul]

/-- **C100**, canonical ensemble: if at least one step was made, there is a previous state whose
concentrations entered the last update; if the averages of the concentrations and of the external
fields did not change in the last step and the averages of the sum of concentrations and of the mask
agree, the equations hold without any constants. -/
theorem C100_canonical (P : Prob M) (hB : P.inv * P.chi = 1) (hS : total P.inv ≠ 0)
    (hcan : P.canonical = true)
    (E : (Fin M → Fld L ℝ) → (Nat → ℝ) → Eval M L) (lu : AM.LinSolve ℝ) (t : ErrorType)
    (eps : ℝ) (lam : Nat → ℝ) (maxItr : Nat) (cont : Bool) (s : St M L)
    (am : AM.Iter ℝ (nElements P L)) :
    let o := AM.solve (sys P false E) lu (computeError t eps) eps lam maxItr cont s am
    o.code = some 0 → 0 < o.updates → ∃ (p : St M L) (y : AM.Vec ℝ (nElements P L)),
      p.ev = E p.w p.par ∧ o.sys = evaluate E (update P p y) ∧
      ((∀ j, mean P.grid (p.ev.c j) = mean P.grid (o.sys.ev.c j)) →
        (∀ j, mean P.grid (extV p.ev j) = mean P.grid (extV o.sys.ev j)) →
        (∑ j, mean P.grid (o.sys.ev.c j) = mean P.grid (maskV P.grid o.sys.ev)) →
        Within P o.sys 0 0 (tolerance t eps (getCurrent P o.sys))) := by
  intro o hc hup
  obtain ⟨h1, _⟩ := AM.C23_return_code (sys P false E) lu (computeError t eps) eps lam
    maxItr cont s am
  obtain ⟨e, he, hlt⟩ := h1 hc
  have hw := within_of_resid P hB hS o.sys (tolerance t eps (getCurrent P o.sys)) fun x =>
    C100_error t eps e _ _ he hlt x
  have hl := solveLoop_last (sys P false E) lu (computeError t eps) eps lam maxItr 0 0
    ((sys P false E).evaluate s)
    { am.setup cont with nBasis := (am.setup cont).stateBasis.length } ⟨s, rfl⟩
  have ho : o = AM.solveLoop (sys P false E) lu (computeError t eps) eps lam maxItr 0 0
    ((sys P false E).evaluate s)
    { am.setup cont with nBasis := (am.setup cont).stateBasis.length } := rfl
  rw [← ho] at hl
  obtain ⟨u, y, hu⟩ : ∃ u y, o.sys = evaluate E (update P (evaluate E u) y) := by
    rcases hl with ⟨h2, _⟩ | ⟨_, u, y, h2⟩
    · omega
    · exact ⟨u, y, h2⟩
  refine ⟨evaluate E u, y, rfl, hu, fun hmc hme hsum => ?_⟩
  have hwo : o.sys.w = (update P (evaluate E u) y).w := by rw [hu]; rfl
  refine ⟨?_, ?_, hw.cell⟩
  · obtain ⟨ξ, hξ⟩ := hw.fields
    refine ⟨fun k => ξ k + mean P.grid (fun k => ((∑ j, (∑ l, P.inv l j) *
      (extV o.sys.ev j k - o.sys.w j k)) + maskV P.grid o.sys.ev k) / total P.inv) * one P.grid k,
      fun i k => ?_⟩
    have hL : 0 < L := by have := k.2; omega
    have h3 := (update_mean P hcan (evaluate E u) y i hL)
    rw [← hwo] at h3
    have h4 := mean_rawResid P o.sys i
    rw [h3] at h4
    simp only [hmc, hme] at h4
    have h5 := hξ i k
    simp only [hcan, if_true, h4] at h5
    convert h5 using 2
    simp only [Pi.zero_apply]
    ring
  · intro k
    have h5 := hw.incompressible k
    simp only [hcan, if_true] at h5
    rw [mean_sub, mean_sum, hsum, sub_self] at h5
    exact h5

/-- **C100**: the residual vanishes exactly when the SCFT equations hold exactly, in the canonical
ensemble up to constants. -/
theorem C100_zero_iff (P : Prob M) (hB : P.inv * P.chi = 1) (hS : total P.inv ≠ 0) (s : St M L) :
    (∀ x, getResidual P false s x = 0) ↔
      ∃ a b, (P.canonical = false → a = 0 ∧ b = 0) ∧ Within P s a b 0 := by
  constructor
  · intro h
    refine ⟨_, _, ?_, within_of_resid P hB hS s 0 fun x => by rw [h x, abs_zero]⟩
    intro h
    simp only [h, Bool.false_eq_true, if_false, and_true]
    rfl
  · rintro ⟨a, b, hab, ⟨ξ, hξ⟩, hi, hcell⟩ x
    unfold getResidual
    rcases pos_cases P x with ⟨i, k, rfl⟩ | ⟨hf, j, hj, hfl, rfl⟩
    · rw [pack_field]
      simp only [Bool.false_eq_true, if_false]
      have hw : ∀ i k, s.w i k = (∑ j, P.chi i j * s.ev.c j k) + extV s.ev i k + ξ k +
          a i * one P.grid k := by
        intro i k
        have := abs_nonpos_iff.1 (hξ i k)
        linarith
      have hc : ∀ k, ∑ j, s.ev.c j k = maskV P.grid s.ev k + b * one P.grid k := by
        intro k
        have := hi k
        rw [zero_mul] at this
        have := abs_nonpos_iff.1 this
        linarith
      -- the residual is a constant
      have hr : ∀ k, rawResid P s i k =
          (-a i + (b + ∑ j, (∑ l, P.inv l j) * a j) / total P.inv) * one P.grid k := by
        intro k
        have h0 := rawResid_cols hB hS s k
        rw [hc] at h0
        set A := ((∑ j, (∑ l, P.inv l j) * (extV s.ev j k - s.w j k)) + maskV P.grid s.ev k) /
          total P.inv with hA
        have h1 : ∀ j, rawResid P s j k = -(ξ k + A) - a j * one P.grid k := by
          intro j
          rw [rawResid_eq, hw j k, ← hA]
          ring
        have hcs : ∀ c : ℝ, ∑ j, (∑ l, P.inv l j) * c = c * total P.inv := by
          intro c
          rw [← Finset.sum_mul, Finset.sum_comm, mul_comm]; rfl
        have h2 : ∑ j, (∑ l, P.inv l j) * rawResid P s j k =
            -(ξ k + A) * total P.inv - (∑ j, (∑ l, P.inv l j) * a j) * one P.grid k := by
          simp only [h1, mul_sub, Finset.sum_sub_distrib, hcs]
          congr 1
          rw [Finset.sum_mul]
          exact Finset.sum_congr rfl fun j _ => by ring
        rw [h2] at h0
        rw [h1]
        field_simp
        linarith
      have hL : 0 < L := by have := k.2; omega
      rw [residCpu_eq]
      cases hcan : P.canonical
      · obtain ⟨ha, hb⟩ := hab hcan
        rw [hr, ha, hb]
        simp
      · have : rawResid P s i = fun k =>
          (-a i + (b + ∑ j, (∑ l, P.inv l j) * a j) / total P.inv) * one P.grid k := funext hr
        rw [this, mean_one_mul _ hL]
        simp
    · rw [pack_cell]
      have := abs_nonpos_iff.1 (hcell hf j hj hfl)
      linarith

/-- **C100**: fields that satisfy the equations exactly (and are not all zero, if the relative error
is used) are returned unchanged, with success. -/
theorem C100_solution_accepted (P : Prob M) (hB : P.inv * P.chi = 1) (hS : total P.inv ≠ 0)
    (E : (Fin M → Fld L ℝ) → (Nat → ℝ) → Eval M L) (lu : AM.LinSolve ℝ) (t : ErrorType)
    (eps : ℝ) (heps : 0 < eps) (lam : Nat → ℝ) (maxItr : Nat) (hmax : 0 < maxItr) (cont : Bool)
    (s : St M L) (am : AM.Iter ℝ (nElements P L)) (a : Fin M → ℝ) (b : ℝ)
    (hab : P.canonical = false → a = 0 ∧ b = 0) (hw : Within P (evaluate E s) a b 0)
    (hn : t = .relNormResid → norm (getCurrent P (evaluate E s)) ≠ 0) :
    let o := AM.solve (sys P false E) lu (computeError t eps) eps lam maxItr cont s am
    o.code = some 0 ∧ o.sys = evaluate E s ∧ o.updates = 0 := by
  have hz : getResidual P false (evaluate E s) = fun _ => 0 :=
    funext ((C100_zero_iff P hB hS (evaluate E s)).2 ⟨a, b, hab, hw⟩)
  apply AM.C23_converged_input (sys P false E) lu (computeError t eps) eps lam maxItr hmax cont s am 0
    ?_ heps
  show computeError t eps (getResidual P false (evaluate E s)) (getCurrent P (evaluate E s)) = some 0
  rw [hz]
  unfold computeError
  cases t <;> simp only [maxAbs_zero, norm_zero, zero_div]
  rw [if_neg (hn rfl)]

/-- **C100** for the GPU programs, in part: the conclusion of `C100_converged` if the ensemble is
canonical or there is no mask. Missing: a mask in an open ensemble, see `C100_gpu_violated`. -/
theorem C100_gpu_partial (P : Prob M) (hB : P.inv * P.chi = 1) (hS : total P.inv ≠ 0)
    (E : (Fin M → Fld L ℝ) → (Nat → ℝ) → Eval M L)
    (hm : P.canonical = true ∨ ∀ w p, (E w p).mask = none) (lu : AM.LinSolve ℝ) (t : ErrorType)
    (eps : ℝ) (lam : Nat → ℝ) (maxItr : Nat) (cont : Bool) (s : St M L)
    (am : AM.Iter ℝ (nElements P L)) :
    let o := AM.solve (sys P true E) lu (computeError t eps) eps lam maxItr cont s am
    o.code = some 0 → o.sys.ev = E o.sys.w o.sys.par ∧
      ∃ a b, (P.canonical = false → a = 0 ∧ b = 0) ∧
        Within P o.sys a b (tolerance t eps (getCurrent P o.sys)) := by
  intro o hc
  obtain ⟨h1, ⟨u, hu⟩, _⟩ := AM.C23_return_code (sys P true E) lu (computeError t eps) eps lam
    maxItr cont s am
  obtain ⟨e, he, hlt⟩ := h1 hc
  have hev : o.sys.ev = E o.sys.w o.sys.par := by
    have : o.sys = evaluate E u := hu
    rw [this]
    rfl
  have heq : getResidual P true o.sys = getResidual P false o.sys := by
    unfold getResidual
    simp only [if_true, Bool.false_eq_true, if_false]
    rw [residGpu_eq P o.sys (hm.imp id fun h => by rw [hev]; exact h _ _)]
  refine ⟨hev, _, _, ?_, within_of_resid P hB hS o.sys _ fun x => ?_⟩
  · intro h
    simp only [h, Bool.false_eq_true, if_false, and_true]
    rfl
  · rw [← heq]
    exact C100_error t eps e _ _ he hlt x

/-- **C100** is violated by the GPU programs (grid and basis) with a mask in an open ensemble: where
the residual vanishes, the sum of the concentrations is the mask plus 1. -/
theorem C100_gpu_violated (P : Prob M) (hB : P.inv * P.chi = 1) (hS : total P.inv ≠ 0)
    (hcan : P.canonical = false) (s : St M L) (m : Fld L ℝ) (hm : s.ev.mask = some m)
    (h : ∀ x, getResidual P true s x = 0) (k : Fin L) :
    ∑ j, s.ev.c j k = m k + one P.grid k := by
  have h1 : ∀ i, rawResid P s i k = one P.grid k / total P.inv := by
    intro i
    have := h (fieldPos P i k)
    unfold getResidual at this
    rw [pack_field] at this
    simp only [if_true] at this
    rw [residGpu_mask P s hcan (by simp [hm]), residCpu_eq, hcan, sumChiInverse_eq] at this
    simp only [Bool.false_eq_true, if_false, sub_zero] at this
    linarith
  have h2 := rawResid_cols hB hS s k
  have hmk : maskV P.grid s.ev k = m k := by simp [maskV, hm]
  simp only [h1, hmk] at h2
  rw [← Finset.sum_mul] at h2
  have h3 : ∑ i, ∑ l, P.inv l i = total P.inv := by rw [total, Finset.sum_comm]
  rw [h3] at h2
  have : total P.inv * (one P.grid k / total P.inv) = one P.grid k := by field_simp
  linarith

/-- **C100**: for the GPU programs with a mask in an open ensemble, exact solutions of the SCFT
equations have a residual that is not zero. -/
theorem C100_gpu_rejects_violated (P : Prob M) (hB : P.inv * P.chi = 1) (hS : total P.inv ≠ 0)
    (hcan : P.canonical = false) (s : St M L) (m : Fld L ℝ) (hm : s.ev.mask = some m)
    (hw : Within P s 0 0 0) (i : Fin M) (k : Fin L) :
    getResidual P true s (fieldPos P i k) = -(one P.grid k / total P.inv) := by
  have h0 := (C100_zero_iff P hB hS s).2 ⟨0, 0, fun _ => ⟨rfl, rfl⟩, hw⟩ (fieldPos P i k)
  unfold getResidual at h0 ⊢
  rw [pack_field] at h0 ⊢
  simp only [Bool.false_eq_true, if_false, if_true] at h0 ⊢
  rw [residGpu_mask P s hcan (by simp [hm]), h0, sumChiInverse_eq]
  ring

/-! ## Examples -/

/-- Two monomer types, three unit cell parameters of which the last is flexible. -/
noncomputable def exProb (grid canonical : Bool) : Prob 2 where
  grid := grid
  canonical := canonical
  chi := !![0, 10; 10, 0]
  inv := !![0, 1/10; 1/10, 0]
  isFlexible := true
  nParam := 3
  flexible := fun i => i == 2
  scale := 10

theorem exProb_inv (g c : Bool) : (exProb g c).inv * (exProb g c).chi = 1 := by
  ext i j
  fin_cases i <;> fin_cases j <;> norm_num [exProb, Matrix.mul_apply, Fin.sum_univ_two]

theorem exProb_total (g c : Bool) : total (exProb g c).inv = 1 / 5 := by
  norm_num [exProb, total, Fin.sum_univ_two]

/-- Concentrations of a state of two phases, a stress of zero, no mask, no external fields. -/
noncomputable def exEval : Eval 2 2 where
  c := ![![1/4, 3/4], ![3/4, 1/4]]
  stress := fun _ => 0
  mask := none
  ext := none

noncomputable def exSt : St 2 2 where
  w := ![![15/2 + 1, 5/2 + 2], ![5/2 + 1, 15/2 + 2]]
  par := fun _ => 3
  ev := exEval

/-- The equations hold exactly in this state. -/
theorem exSt_within (c : Bool) : Within (exProb true c) exSt 0 0 0 := by
  refine ⟨⟨![1, 2], fun i k => ?_⟩, fun k => ?_, fun _ j _ _ => ?_⟩
  · fin_cases i <;> fin_cases k <;>
      norm_num [exSt, exEval, exProb, extV, Fin.sum_univ_two]
  · fin_cases k <;> norm_num [exSt, exEval, maskV, one, exProb, Fin.sum_univ_two]
  · simp [exSt, exEval]

/-- `C100_solution_accepted` and `C100_converged` apply to it. -/
example (lu : AM.LinSolve ℝ) (lam : Nat → ℝ) (am : AM.Iter ℝ (nElements (exProb true false) 2)) :
    (AM.solve (sys (exProb true false) false (fun _ _ => exEval)) lu
      (computeError .maxResid (1/1000)) (1/1000) lam 5 false exSt am).code = some 0 :=
  (C100_solution_accepted _ (exProb_inv _ _) (by rw [exProb_total]; norm_num) _ lu _ _ (by norm_num)
    lam 5 (by norm_num) false exSt am 0 0 (fun _ => ⟨rfl, rfl⟩) (exSt_within _) (by simp)).1

/-- `C99_gpu_violated` applies: only the last of three parameters is flexible. -/
example (s : St 2 2) (y : AM.Vec ℝ (nElements (exProb true false) 2)) :
    updateGpu (exProb true false) s y = .ub :=
  C99_gpu_violated _ s y rfl (fun h => by
    have := h 2 (by norm_num [exProb]) rfl 0 (by norm_num)
    simp [exProb] at this)

/-- The update of the CPU program stores the last element of the vector in parameter 2 only. -/
example (s : St 2 2) (y : AM.Vec ℝ (nElements (exProb true false) 2)) :
    (update (exProb true false) s y).par 0 = s.par 0 ∧
    (update (exProb true false) s y).par 2 = 1 / 10 * y ⟨4, by decide⟩ :=
  ⟨C99_fixed _ _ _ _ (Or.inr (Or.inr rfl)),
    update_par (exProb true false) s y rfl 2 (by norm_num [exProb]) rfl⟩

/-- A state that is not a solution. -/
noncomputable def exStart : St 2 2 := ⟨fun _ _ => 0, fun _ => 3, exEval⟩

theorem exStart_resid (i : Fin 2) (k : Fin 2) :
    residCpu (exProb true true) exStart i k =
      (![![5/2, -5/2], ![-5/2, 5/2]] : Fin 2 → Fld 2 ℝ) i k := by
  rw [residCpu_eq]
  simp only [mean, exProb, if_true, accum_eq, rawResid_eq]
  fin_cases i <;> fin_cases k <;>
    norm_num [exStart, exEval, extV, maskV, one, total, Fin.sum_univ_two]

/-- A run in the canonical ensemble that makes one step and then reports success; `C100_canonical`
applies to it, and its conditions on averages hold because the concentrations do not change. -/
example (lu : AM.LinSolve ℝ) (U : Nat → Nat → ℝ) (c : Nat → ℝ) :
    let P := exProb true true
    let o := AM.solve (sys P false (fun _ _ => exEval)) lu (computeError .maxResid 1) 1 (fun _ => 1)
      2 false exStart (AM.Iter.new 3 U c)
    o.code = some 0 ∧ o.updates = 1 := by
  intro P o
  have h0 : ¬ maxAbs (getResidual P false exStart) < 1 := by
    have h1 := maxAbs_ge (getResidual P false exStart) (fieldPos P 0 0)
    have h2 : getResidual P false exStart (fieldPos P 0 0) = 5 / 2 := by
      unfold getResidual
      rw [pack_field]
      exact exStart_resid 0 0
    rw [h2] at h1
    norm_num [abs_of_pos] at h1 ⊢
    linarith
  set y : AM.Vec ℝ (nElements P 2) :=
    AM.addCorrection 1 (getCurrent P exStart) (getResidual P false exStart) with hy
  set z : St 2 2 := evaluate (fun _ _ => exEval) (update P exStart y) with hz
  have hyf : ∀ i k, arr P y (i.val * 2 + k.val) =
      (![![5/2, -5/2], ![-5/2, 5/2]] : Fin 2 → Fld 2 ℝ) i k := by
    intro i k
    rw [arr_field, hy]
    unfold AM.addCorrection getCurrent getResidual
    rw [pack_field, pack_field]
    have := exStart_resid i k
    simp only [Bool.false_eq_true, if_false, mul_one]
    rw [this]
    simp [exStart]
  have hw : ∀ i k, z.w i k = (![![15/2, 5/2], ![5/2, 15/2]] : Fin 2 → Fld 2 ℝ) i k := by
    intro i k
    show newFields P exStart (arr P y) i k = _
    rw [newFields_eq P exStart _ i k rfl]
    simp only [hyf]
    fin_cases i <;> fin_cases k <;>
      norm_num [mean, accum_eq, P, exProb, exStart, exEval, extV, one, Fin.sum_univ_two]
  have hr : getResidual P false z = fun _ => 0 := by
    refine funext ((C100_zero_iff P (exProb_inv _ _) (by rw [exProb_total]; norm_num) z).2
      ⟨0, 0, fun _ => ⟨rfl, rfl⟩, ⟨fun _ => 0, fun i k => ?_⟩, fun k => ?_, fun _ j _ _ => ?_⟩)
    · rw [hw]
      have : z.ev = exEval := rfl
      rw [this]
      fin_cases i <;> fin_cases k <;>
        norm_num [exEval, P, exProb, extV, Fin.sum_univ_two]
    · have : z.ev = exEval := rfl
      rw [this]
      fin_cases k <;> norm_num [exEval, maskV, one, P, exProb, Fin.sum_univ_two]
    · have : z.ev = exEval := rfl
      rw [this]
      simp [exEval]
  have ho : o = AM.solve (sys P false (fun _ _ => exEval)) lu (computeError .maxResid 1) 1
      (fun _ => 1) 2 false exStart (AM.Iter.new 3 U c) := rfl
  have e1 : (sys P false (fun _ _ => exEval)).evaluate exStart = exStart := rfl
  unfold AM.solve at ho
  rw [e1] at ho
  unfold AM.solveLoop at ho
  simp only [computeError] at ho
  rw [if_neg (show ¬ maxAbs ((sys P false (fun _ _ => exEval)).getResidual exStart) < 1 from h0)] at ho
  simp only [AM.computeTrialCoeff, AM.Iter.new, AM.Iter.setup, AM.updateTrial, if_true,
    List.length_nil, and_self, gt_iff_lt, lt_irrefl, if_false] at ho
  unfold AM.solveLoop at ho
  simp only [computeError] at ho
  have e2 : (sys P false (fun _ _ => exEval)).getResidual
      ((sys P false (fun _ _ => exEval)).evaluate ((sys P false (fun _ _ => exEval)).update exStart
        (AM.addCorrection 1 ((sys P false (fun _ _ => exEval)).getCurrent exStart)
          ((sys P false (fun _ _ => exEval)).getResidual exStart)))) = fun _ => 0 := hr
  rw [e2, maxAbs_zero, if_pos one_pos] at ho
  rw [ho]
  exact ⟨rfl, rfl⟩

end Verif.Scft
